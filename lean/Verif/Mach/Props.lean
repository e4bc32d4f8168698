import Verif.Mach.Load
import Verif.Exe.Props
set_option autoImplicit false
namespace Smlr.Mach
open Smlr.Sect
open Smlr.Exe

theorem layout_found (c : Cfg) (sort : List Desc → List Desc) (ss : List Sec) (ds : List Desc) (st : St) (h : layout c sort ss = .ok (ds, st)) : findAll c sort ss = .ok ds := by
  unfold layout at h
  cases hf : findAll c sort ss with
  | error e => rw [hf] at h; cases h
  | ok ds' =>
    rw [hf] at h
    simp only at h
    cases hp : pass c ss ds' with
    | error e => rw [hp] at h; cases h
    | ok st' =>
      rw [hp] at h
      cases h
      rfl

/-- **C61.** The Mach-O file that the linker writes is loaded by the system with every section at its address, its contents as they must be, code in a segment that is executed and not written,
the rest in one that is written and not executed; the memory below the image cannot be accessed, the program starts at the entry point, and there is a symbol table, in the segment
__LINKEDIT, that names the header and the entry point.  Missing from the full claim: the program must leave the last page of the address space free. -/
theorem c61_mach_partial (useBss : Bool) (org : Nat) (sort : List Desc → List Desc) (ss : List Sec) (entry : Entry) (file : Bytes) (hs : Sorts sort) (ho : Objects ss) (hor : org < 2 ^ 32)
    (h : rwMach useBss org sort ss entry = .ok file)
    (hroom : ∀ d ds st, layout (cfg useBss org d) sort ss = .ok (ds, st) → ∀ p ∈ st.placed, p.addr + p.sec.size ≤ 2 ^ 32 - 4096) :
    ∃ ds st e img, layout (cfg useBss org (hasData ds)) sort ss = .ok (ds, st) ∧ entry ds st = .ok e ∧ load file = some img ∧ img.entries = [e.toNat] ∧ Separate (img.segs.map MSeg.seg) ∧
      (∀ p ∈ st.placed, ∃ s ∈ img.segs, s.seg.Holds p.addr (contents p.sec) ∧ s.seg.r = true ∧ s.seg.x = p.sec.attrs.exec ∧ s.seg.w = !p.sec.attrs.exec) ∧
      (∀ s ∈ img.segs, s.seg.addr < base org → s.seg.r = false ∧ s.seg.w = false ∧ s.seg.x = false) ∧
      (base org ≠ 0 → ∃ s ∈ img.segs, s.seg.addr = 0 ∧ s.seg.bytes.length = base org) ∧
      ∃ lo hi, img.syms = [([⟨str "__mh_execute_header", 3, 1, base org⟩, ⟨str "start", 15, 1, e.toNat⟩], lo, hi)] ∧
        ∃ s ∈ img.segs, s.name = str "__LINKEDIT" ∧ s.off ≤ lo ∧ hi ≤ s.off + s.size ∧ s.seg.r = true := by
  unfold rwMach at h
  cases hf0 : findAll ⟨.mach32, useBss, 0, 0, []⟩ sort ss with
  | error e => rw [hf0] at h; cases h
  | ok ds0 =>
  rw [hf0] at h
  simp only at h
  split at h
  · cases h
  · rename_i hbase
    have hbm : base org % 4096 = 0 := by
      unfold base down
      split
      · rfl
      · omega
    have hbl : base org < 2 ^ 32 := by omega
    cases hpr : prepare (cfg useBss org (hasData ds0)) sort ss entry with
    | error e => rw [hpr] at h; cases h
    | ok x =>
      obtain ⟨ds, st, e⟩ := x
      obtain ⟨hl, he⟩ := prepare_ok _ _ _ _ _ _ _ hpr
      rw [hpr] at h
      simp only at h
      have hds : ds0 = ds := by
        have h1 := layout_found _ _ _ _ _ hl
        rw [findAll_eq (cfg useBss org (hasData ds0)) ⟨.mach32, useBss, 0, 0, []⟩ rfl rfl, hf0] at h1
        exact Except.ok.inj h1
      subst hds
      obtain ⟨H, hH⟩ : ∃ H, H = hdrsz org (hasData ds0) := ⟨_, rfl⟩
      have hHl : H < 1000 := by
        rw [hH]
        unfold hdrsz cmdsSize
        cases base org != 0 <;> cases hasData ds0 <;> decide
      have hc0 : (cfg useBss org (hasData ds0)).origin = base org + H := by rw [hH]; rfl
      have hw : WF (cfg useBss org (hasData ds0)) ss := ⟨by rw [hc0]; omega, (by intro h; cases h), (show 0 < 2 ^ 32 by decide), ho.sizes⟩
      have hu : Uniform (cfg useBss org (hasData ds0)) ss := uniform_of _ _ ho (by intro h; cases h)
      have hF : Facts (cfg useBss org (hasData ds0)) (cfg useBss org (hasData ds0)).useBss ds0 st := facts _ sort ss ds0 st hs hw hu (by intro h; cases h) hl
      have hP : Paged (cfg useBss org (hasData ds0)).fmt := .inr (.inr (.inr rfl))
      obtain ⟨A, hA⟩ := pages _ ds0 st hF hP
      have hlen := length_of _ sort ss ds0 st hs hw hu hl
      obtain ⟨ph, hi, -⟩ := hF.inv
      have hns : (cfg useBss org (hasData ds0)).fmt ≠ .dosExeSmall := by intro h; cases h
      have hroom := hroom _ _ _ hl
      have a1 := hA.lo
      have a2 := hA.hi
      have a3 := hA.mod
      have a4 := hA.lt
      have a5 := hA.len
      rw [hc0] at a1 a5
      have hst : sub32 (up st.code.2) (base org) = A - base org := by rw [hA.up]; unfold sub32; omega
      have hst' : sub32 (up st.code.2) (cfg useBss org (hasData ds0)).origin = A - (base org + H) := by rw [hA.up, hc0]; unfold sub32; omega
      have hel := e.toNat_lt
      -- the end of the file part and of the memory of the program
      have hdat : ∃ S V, dataCmd useBss (base org) ds0 st = .ok (dataBytes (hasData ds0) (base org) A S V, S, V) ∧ S = H + st.out.length ∧ S % 4096 = 0 ∧ A - base org ≤ S ∧ A ≤ V ∧ V % 4096 = 0 ∧
          base org + S ≤ V ∧ V + 4096 ≤ 2 ^ 32 ∧ (hasData ds0 = false → S = A - base org) ∧
          (hasData ds0 = true → (∀ p ∈ st.placed, FileA (cfg useBss org (hasData ds0)) p.sec.attrs → fin p ≤ base org + S) ∧
            (∀ p ∈ st.placed, ¬ FileA (cfg useBss org (hasData ds0)) p.sec.attrs → base org + S ≤ p.addr) ∧ ∀ p ∈ st.placed, p.sec.attrs.exec = false → fin p ≤ V) := by
        cases hh : hasData ds0 with
        | false =>
          have hnd := hA.noData hh
          rw [hc0] at hnd
          obtain ⟨-, -, ⟨q, hq, hq'⟩⟩ := hF.code
          have hq2 : fin q = st.code.2 := hq'
          have := hroom q (List.mem_filter.1 hq).1
          have h2 := hA.code2
          unfold fin at hq2
          unfold pg at h2
          refine ⟨A - base org, A, ?_, by omega, by omega, Nat.le_refl _, Nat.le_refl _, a3, by omega, by omega, fun _ => rfl, fun h => by cases h⟩
          unfold dataCmd
          rw [hh, hst]
          simp only [Bool.false_eq_true, if_false]
          rw [show (base org + (A - base org)) % 2 ^ 32 = A by omega]
          rfl
        | true =>
          rw [hh] at hF hA hc0
          obtain ⟨F, k1, k2, k3, k4, k5, k6, k7, k8⟩ := filesz_ok _ ds0 st A hF hP hA hh
          obtain ⟨t1, t2, t3⟩ := hA.start hh
          rw [hc0] at k5
          have k1' : dataFilesz useBss ds0 st = .ok (F - A) := k1
          have hdn : down st.data.1 = A := by rw [t1]; unfold down; omega
          obtain ⟨-, -, ⟨q, hq, hq'⟩⟩ := hF.data hh
          have hq2 : fin q = st.data.2 := hq'
          have hr := hroom q (List.mem_filter.1 hq).1
          have hms : sub32 (up st.data.2) A = pg st.data.2 - A := by
            unfold up down pg sub32
            omega
          have hpl : pg st.data.2 + 4096 ≤ 2 ^ 32 := by
            unfold fin at hq2
            unfold pg
            omega
          have hoff2 : sub32 A (base org) = A - base org := by unfold sub32; omega
          refine ⟨F - base org, pg st.data.2, ?_, by omega, by omega, by omega, by omega, pg_mod _, by omega, hpl, (fun h => by cases h), fun _ => ⟨?_, ?_, ?_⟩⟩
          · unfold dataCmd
            rw [hh, k1']
            simp only [if_true]
            rw [hdn, hms, hoff2, show (A - base org + (F - A)) % 2 ^ 32 = F - base org by omega, show (A + (pg st.data.2 - A)) % 2 ^ 32 = pg st.data.2 by omega]
            unfold dataBytes
            rw [show F - base org - (A - base org) = F - A by omega]
            rfl
          · intro p hp hfa
            have := k7 p hp hfa
            omega
          · intro p hp hfa
            have := k8 p hp hfa
            omega
          · intro p hp hpe
            exact (hA.data p hp hpe).2
      obtain ⟨S, V, m1, m2, m3, m4, m5, m6, m7, m8, m9, m10⟩ := hdat
      rw [m1] at h
      simp only at h
      injection h with h
      obtain ⟨hdr, hhdr⟩ : ∃ x, x = header ((base org != 0).toNat + 4 + (hasData ds0).toNat) (cmdsSize (base org != 0) (hasData ds0)) ++ cmdBytes (hasData ds0) (base org) A H S V e.toNat := ⟨_, rfl⟩
      have hfile : file = hdr ++ st.out ++ (nlist 2 3 1 0x10 (base org) ++ (nlist 22 15 1 0 e.toNat ++ strings)) := by
        rw [← h, hhdr]
        unfold textCmd cmdBytes
        rw [hst, hst', hc0, ← hH]
        simp only [List.append_assoc]
      have hhl : hdr.length = H := by
        rw [hhdr, List.length_append, cmdBytes_len, hH]
        rfl
      have hload := file_ok file st.out (hasData ds0) (base org) A H S V e.toNat _ _ rfl rfl hH (by rw [hfile, hhdr]) m2 hbm a3 m3 m6 (by omega) m4 m5 m7 m8 hel
      have hfl : S ≤ file.length := by
        rw [hfile]
        simp only [List.length_append]
        omega
      have hzl : ∀ s ∈ zeroSeg file (base org), s.seg.addr = 0 ∧ s.seg.bytes.length = base org ∧ s.seg.r = false ∧ s.seg.w = false ∧ s.seg.x = false := by
        intro s hs
        unfold zeroSeg at hs
        split at hs
        · rw [List.mem_singleton.1 hs]
          exact ⟨rfl, by simp, rfl, rfl, rfl⟩
        · cases hs
      have htl : (textSeg file (base org) A).seg.bytes.length = A - base org := by
        unfold textSeg
        simp only [List.length_append, List.length_take, List.length_drop, List.length_replicate]
        omega
      have hdl : ∀ s ∈ dataSeg file (hasData ds0) (base org) A S V, s.seg.addr = A ∧ s.seg.bytes.length = V - A := by
        intro s hs
        unfold dataSeg at hs
        split at hs
        · rw [List.mem_singleton.1 hs]
          refine ⟨rfl, ?_⟩
          simp only [List.length_append, List.length_take, List.length_drop, List.length_replicate]
          omega
        · cases hs
      have hlast : ∀ s ∈ dataSeg file (hasData ds0) (base org) A S V ++ [linkSeg file S V], A ≤ s.seg.addr := by
        intro s hs
        rcases List.mem_append.1 hs with hs | hs
        · rw [(hdl s hs).1]
          omega
        · rw [List.mem_singleton.1 hs]
          exact m5
      refine ⟨ds0, st, e, _, hl, he, hload, rfl, ?_, ?_, ?_, ?_, S, S + 52, rfl, linkSeg file S V, ?_, rfl, Nat.le_refl _, Nat.le_refl _, rfl⟩
      · unfold Separate
        rw [List.pairwise_map, List.pairwise_append]
        refine ⟨?_, List.pairwise_cons.2 ⟨?_, ?_⟩, ?_⟩
        · unfold zeroSeg
          split
          · exact List.pairwise_singleton _ _
          · exact List.Pairwise.nil
        · intro t ht
          have := hlast t ht
          rw [htl]
          show (base org + (A - base org) + 4095) / 4096 ≤ t.seg.addr / 4096
          omega
        · rw [List.pairwise_append]
          refine ⟨?_, List.pairwise_singleton _ _, ?_⟩
          · unfold dataSeg
            split
            · exact List.pairwise_singleton _ _
            · exact List.Pairwise.nil
          · intro s hs t ht
            rw [List.mem_singleton.1 ht, (hdl s hs).1, (hdl s hs).2]
            show (A + (V - A) + 4095) / 4096 ≤ V / 4096
            omega
        · intro s hs t ht
          rw [(hzl s hs).1, (hzl s hs).2.1]
          have : base org ≤ t.seg.addr := by
            rcases List.mem_cons.1 ht with rfl | ht
            · exact Nat.le_refl _
            · have := hlast t ht
              omega
          omega
      · intro p hp
        cases hpe : p.sec.attrs.exec with
        | true =>
          refine ⟨textSeg file (base org) A, List.mem_append_right _ (List.mem_cons_self ..), ?_, rfl, rfl, rfl⟩
          have hx := hA.exec p hp hpe
          have := holds_file _ st ph hi hns (base org) H hc0 hdr (nlist 2 3 1 0x10 (base org) ++ (nlist 22 15 1 0 e.toNat ++ strings)) hhl (List.replicate (A - base org - (A - base org)) 0) (base org) (A - base org)
            true false true (Nat.le_refl _) (by omega) p hp (.inl (hF.px p hp hpe)) (hlen p hp) (by omega) (by omega)
          rw [← hfile, Nat.sub_self] at this
          exact this
        | false =>
          have hh : hasData ds0 = true := by
            cases hh : hasData ds0 with
            | true => rfl
            | false =>
              rw [hF.noData hh p hp] at hpe
              cases hpe
          obtain ⟨n1, n2, n3⟩ := m10 hh
          have hmem : (⟨⟨A, (file.drop (A - base org)).take (S - (A - base org)) ++ List.replicate (V - A - (S - (A - base org))) 0, true, true, false⟩, str "__DATA", A - base org, S - (A - base org)⟩ : MSeg) ∈
              dataSeg file (hasData ds0) (base org) A S V := by
            unfold dataSeg
            rw [hh]
            exact List.mem_singleton.2 rfl
          refine ⟨_, List.mem_append_right _ (List.mem_cons_of_mem _ (List.mem_append_left _ hmem)), ?_, rfl, rfl, rfl⟩
          obtain ⟨b1, -⟩ := hA.data p hp hpe
          have b2 := n3 p hp hpe
          by_cases hfa : FileA (cfg useBss org (hasData ds0)) p.sec.attrs
          · have h7 := n1 p hp hfa
            have := holds_file _ st ph hi hns (base org) H hc0 hdr (nlist 2 3 1 0x10 (base org) ++ (nlist 22 15 1 0 e.toNat ++ strings)) hhl (List.replicate (V - A - (S - (A - base org))) 0) A (S - (A - base org))
              true true false (by omega) (by omega) p hp hfa (hlen p hp) b1 (by omega)
            rw [← hfile] at this
            exact this
          · have h8 := n2 p hp hfa
            obtain ⟨z1, z2⟩ := noFile_of _ _ hfa
            have hl' := hlen p hp
            have hcon : contents p.sec = List.replicate p.sec.size 0 := by unfold contents; rw [z1]; rfl
            have hbl : ((file.drop (A - base org)).take (S - (A - base org))).length = S - (A - base org) := by
              simp only [List.length_take, List.length_drop]
              omega
            unfold fin at b2
            refine ⟨b1, ?_, ?_⟩
            · rw [List.length_append, List.length_replicate, hbl, hl']
              simp only
              omega
            · rw [hl', hcon]
              apply seg_zero
              · rw [hbl]
                simp only
                omega
              · rw [hbl]
                simp only
                omega
      · intro s hs hlt
        rcases List.mem_append.1 hs with hs | hs
        · exact (hzl s hs).2.2
        · rcases List.mem_cons.1 hs with rfl | hs
          · exact absurd hlt (Nat.lt_irrefl _)
          · have := hlast s hs
            omega
      · intro hb0
        have : zeroSeg file (base org) ≠ [] := by
          unfold zeroSeg
          rw [if_pos (by simpa using hb0)]
          exact List.cons_ne_nil _ _
        obtain ⟨s, hs⟩ := List.exists_mem_of_ne_nil _ this
        exact ⟨s, List.mem_append_left _ hs, (hzl s hs).1, (hzl s hs).2.1⟩
      · exact List.mem_append_right _ (List.mem_cons_of_mem _ (List.mem_append_right _ (List.mem_singleton.2 rfl)))

/-- the segments as numbers, with 1, 2 and 4 for x, w and r; the symbols; the entry points -/
def shown (f : Bytes) : Option (List (List Nat) × List Name) :=
  (load f).map fun l => (l.entries :: l.segs.map (fun s => [s.seg.addr, s.seg.x.toNat + 2 * s.seg.w.toNat + 4 * s.seg.r.toNat, s.off, s.size]) ++ l.syms.map (fun t => t.1.map Sym.value),
    l.syms.flatMap fun t => t.1.map Sym.name)

example : (rwMach true 0xFFFFFFFF isort sample third).toOption.bind shown =
    some ([[4590], [0, 0, 0, 0], [4096, 5, 0, 4096], [8192, 6, 4096, 4096], [16384, 4, 8192, 52], [4096, 4590]], [str "__mh_execute_header", str "start"]) := by decide +kernel

example : ∃ file ds st e img, rwMach true 0xFFFFFFFF isort sample third = .ok file ∧ layout (cfg true 0xFFFFFFFF (hasData ds)) isort sample = .ok (ds, st) ∧ third ds st = .ok e ∧ load file = some img ∧
    st.placed.length = 7 ∧ ∀ p ∈ st.placed, ∃ s ∈ img.segs, s.seg.Holds p.addr (contents p.sec) := by
  cases h : rwMach true 0xFFFFFFFF isort sample third with
  | error e =>
    have : (rwMach true 0xFFFFFFFF isort sample third).toOption.isSome = true := by decide +kernel
    rw [h] at this
    cases this
  | ok file =>
    have hx : ∀ d, ((layout (cfg true 0xFFFFFFFF d) isort sample).toOption.map fun x => (x.2.placed.length, x.2.placed.all fun p => decide (p.addr + p.sec.size ≤ 2 ^ 32 - 4096))) = some (7, true) := by
      intro d
      cases d <;> decide +kernel
    obtain ⟨ds, st, e, img, h1, h2, h3, -, -, h6, -⟩ := c61_mach_partial true 0xFFFFFFFF isort sample third file sorts_isort sample_objects (by decide) h (by
      intro d ds st hl p hp
      have := hx d
      rw [hl] at this
      have := congrArg Prod.snd (Option.some.inj this)
      exact of_decide_eq_true (List.all_eq_true.1 this p hp))
    refine ⟨file, ds, st, e, img, rfl, h1, h2, h3, ?_, fun p hp => ?_⟩
    · have := hx (hasData ds)
      rw [h1] at this
      exact congrArg Prod.fst (Option.some.inj this)
    · obtain ⟨s, hs, hh, -⟩ := h6 p hp
      exact ⟨s, hs, hh⟩

/-- a byte of code and 4097 bytes of zeroes -/
def high : List Sec := [⟨str ".text", true, aText, 1, 1, [0xC3]⟩, ⟨str ".bss", true, aBss, 1, 4097, []⟩]

/-- A program that reaches into the last page of the address space: the linker places the segment __LINKEDIT behind the program, which is at address 0, where __PAGEZERO is. -/
theorem c61_last_page : ∃ file img, Objects high ∧ rwMach true 0xFFFFD000 isort high third = .ok file ∧ load file = some img ∧
    img.segs.map (fun s => s.seg.addr) = [0, 0xFFFFD000, 0xFFFFE000, 0] ∧ img.segs.map MSeg.name = [str "__PAGEZERO", str "__TEXT", str "__DATA", str "__LINKEDIT"] := by
  have hx : ((rwMach true 0xFFFFD000 isort high third).toOption.bind load).map (fun l => (l.segs.map (fun s => s.seg.addr), l.segs.map MSeg.name)) =
      some ([0, 0xFFFFD000, 0xFFFFE000, 0], [str "__PAGEZERO", str "__TEXT", str "__DATA", str "__LINKEDIT"]) := by decide +kernel
  cases h : rwMach true 0xFFFFD000 isort high third with
  | error e =>
    rw [h] at hx
    cases hx
  | ok file =>
    rw [h] at hx
    obtain ⟨img, h1, h2⟩ := Option.map_eq_some_iff.1 hx
    injection h2 with h2 h3
    exact ⟨file, img, ⟨by decide, by decide⟩, rfl, h1, h2, h3⟩

end Smlr.Mach
