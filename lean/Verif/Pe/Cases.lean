import Verif.Pe.Props
set_option autoImplicit false
/-! Programs for C63, and what is missing from it. -/
namespace Smlr.Pe
open Smlr.Sect
open Smlr.Exe


/-- entry point, base, fixed, dynamic, directories; then the sections: address, 1, 2 and 4 for x, w and r, and size -/
def shown (f : Bytes) : Option (List Nat × List (List Nat)) :=
  (load f).map fun i => ([i.entry, i.base, i.fixed.toNat, i.dynamic.toNat, i.relocs.1, i.relocs.2, i.imports.1, i.iats.1],
    i.segs.map fun s => [s.addr, s.x.toNat + 2 * s.w.toNat + 4 * s.r.toNat, s.bytes.length])

/-- code, import tables and zeros -/
def prog : List Sec :=
  [⟨str ".text", true, aText, 1, 5, [0x55, 0x89, 0xE5, 0xC9, 0xC3]⟩, ⟨str ".bss", true, aBss, 4, 5000, []⟩, ⟨str ".dll_import", true, aData, 4, 4, [0, 0x20, 0x40, 0]⟩,
   ⟨str ".text", true, aText, 1, 2, [0x90, 0xC3]⟩]

theorem prog_objects : Objects prog := ⟨by decide, by decide⟩

/-- the words of the import tables in `prog` made relative -/
def imps : List Desc → St → Imports := fun _ _ => ⟨(0x2000, 4), (0x2000, 4), [(1024 + 0x1000, [0, 0x20, 0, 0])]⟩

def two : List Desc → St → List Nat := fun _ _ => [0x401001, 0x402000]

example : (rwPe true 0xFFFFFFFF isort prog third imps none).toOption.bind shown =
    some ([0x401002, 0x400000, 1, 0, 0, 0, 0x2000, 0x2000], [[0x401000, 5, 4096], [0x402000, 6, 4096], [0x403000, 6, 8192]]) := by decide +kernel

instance (ws : List (Nat × Bytes)) (a n : Nat) : Decidable (Clear ws a n) := inferInstanceAs (Decidable (∀ w ∈ ws, _))

/-- what the theorem supposes, for `prog` -/
theorem prog_room : ((layout (cfg true 0xFFFFFFFF) isort prog).toOption.map fun x => (x.2.placed.length, x.2.out.length, x.2.placed.all fun p => decide (p.addr + p.sec.size + 20000 ≤ 2 ^ 32))) =
    some (4, 2 * 4096, true) := by decide +kernel

example : ∃ file ds st e img, rwPe true 0xFFFFFFFF isort prog third imps (some two) = .ok file ∧ layout (cfg true 0xFFFFFFFF) isort prog = .ok (ds, st) ∧ third ds st = .ok e ∧ load file = some img ∧
    img.entry = e.toNat ∧ st.placed.length = 4 ∧ (∀ p ∈ st.placed, ¬ str ".dll_" <+: p.sec.name → ∃ s ∈ img.segs, s.Holds p.addr (contents p.sec)) ∧
    ∃ T s, Fixup.listed T = some (two ds st) ∧ s ∈ img.segs ∧ s.Holds (0x400000 + img.relocs.1) T := by
  cases h : rwPe true 0xFFFFFFFF isort prog third imps (some two) with
  | error e =>
    have : (rwPe true 0xFFFFFFFF isort prog third imps (some two)).toOption.isSome = true := by decide +kernel
    rw [h] at this
    cases this
  | ok file =>
    obtain ⟨ds, st, e, img, h1, h2, h3, -, h5, -, h7, -, h9, -⟩ := c63_pe_partial true 0xFFFFFFFF isort prog third imps (some two) file sorts_isort prog_objects (by decide) (.inl rfl)
      (fun h => by cases h) (by
        intro ds st hl p hp
        have := prog_room
        rw [hl] at this
        have := of_decide_eq_true (List.all_eq_true.1 (congrArg (fun x => x.2.2) (Option.some.inj this)) p hp)
        show p.addr + p.sec.size + 16384 + 12 * 2 ≤ 2 ^ 32
        omega) (by
        intro ds st l _ hl a ha
        injection hl with hl
        subst hl
        rcases List.mem_cons.1 ha with ha | ha
        · rw [ha]; decide
        · rw [List.mem_singleton.1 ha]; decide) (by
        intro ds st hl w hw
        have := prog_room
        rw [hl] at this
        have := congrArg (fun x => x.2.1) (Option.some.inj this)
        have : st.out.length = 8192 := this
        rw [List.mem_singleton.1 hw, this]
        decide) h
    refine ⟨file, ds, st, e, img, rfl, h1, h2, h3, h5, ?_, ?_, ?_⟩
    · have := prog_room
      rw [h1] at this
      exact congrArg Prod.fst (Option.some.inj this)
    · intro p hp hnd
      have hx : ((layout (cfg true 0xFFFFFFFF) isort prog).toOption.map fun x => x.2.placed.all fun p => decide (¬ str ".dll_" <+: p.sec.name → Clear (imps x.1 x.2).writes (place 0xFFFFFFFF p) p.sec.size)) = some true := by
        decide +kernel
      rw [h1] at hx
      obtain ⟨s, hs, hh, -⟩ := h7 p hp (of_decide_eq_true (List.all_eq_true.1 (Option.some.inj hx) p hp) hnd)
      exact ⟨s, hs, hh⟩
    · obtain ⟨-, -, T, s, t1, -, t3, t4, -⟩ := h9 two rfl
      exact ⟨T, s, t1, t3, t4⟩

/-! ### what is missing -/

/-- no imports -/
def none_ : List Desc → St → Imports := fun _ _ => ⟨(0, 0), (0, 0), []⟩

/-- The image base need not be a multiple of 64 KB for the linker, but must be for Windows. -/
theorem c63_base : ∃ file, Objects prog ∧ rwPe true 0x401000 isort prog third imps none = .ok file ∧ load file = none := by
  have hx : ((rwPe true 0x401000 isort prog third imps none).toOption.map fun f => (load f).isNone) = some true := by decide +kernel
  cases h : rwPe true 0x401000 isort prog third imps none with
  | error e => rw [h] at hx; cases hx
  | ok file =>
    rw [h] at hx
    exact ⟨file, prog_objects, rfl, Option.isNone_iff_eq_none.1 (Option.some.inj hx)⟩

/-- nothing hinders `prog` from being accepted, as `c63_accepts` says -/
example : ∃ file, rwPe true 0xFFFFFFFF isort prog third none_ none = .ok file := by
  cases hl : layout (cfg true 0xFFFFFFFF) isort prog with
  | error e => have := prog_room; rw [hl] at this; cases this
  | ok x =>
    have hr := prog_room
    have he : ((layout (cfg true 0xFFFFFFFF) isort prog).toOption.map fun x => (third x.1 x.2).toOption.isSome) = some true := by decide +kernel
    rw [hl] at hr he
    cases h3 : third x.1 x.2 with
    | error e => have : (third x.1 x.2).toOption.isSome = true := Option.some.inj he; rw [h3] at this; cases this
    | ok e =>
      refine c63_accepts true 0xFFFFFFFF isort prog third none_ none sorts_isort prog_objects (by decide) (by decide) (fun h => by cases h) x.1 x.2 e hl h3 ?_
      intro p hp
      have := of_decide_eq_true (List.all_eq_true.1 (congrArg (fun x => x.2.2) (Option.some.inj hr)) p hp)
      omega

/-- zeros that are not writable -/
def zeros : List Sec := [⟨str ".text", true, aText, 1, 1, [0xC3]⟩, ⟨str ".rbss", true, { aBss with write := false }, 1, 4, []⟩]

/-- Such a program has a layout, but ends with an internal error. -/
theorem c63_zeros : Objects zeros ∧ (layout (cfg true 0xFFFFFFFF) isort zeros).toOption.isSome = true ∧ rwPe true 0xFFFFFFFF isort zeros third none_ none = .error .internal := by
  refine ⟨⟨by decide, by decide⟩, by decide +kernel, ?_⟩
  have : (match rwPe true 0xFFFFFFFF isort zeros third none_ none with | .error .internal => true | _ => false) = true := by decide +kernel
  revert this
  cases rwPe true 0xFFFFFFFF isort zeros third none_ none with
  | ok f => intro h; cases h
  | error e => cases e <;> simp

/-- a section without contents among the import tables -/
def dlls : List Sec := [⟨str ".text", true, aText, 1, 1, [0xC3]⟩, ⟨str ".dll_a", true, aData, 1, 1, [1]⟩, ⟨str ".dll_b", true, aBss, 1, 4096, []⟩]

/-- Such a section is divided between .idata and .data. -/
theorem c63_dll : ∃ file img ds st, Objects dlls ∧ rwPe false 0xFFFFFFFF isort dlls third none_ none = .ok file ∧ load file = some img ∧
    img.segs.map (fun s => (s.addr, s.bytes.length)) = [(0x401000, 4096), (0x402000, 4096), (0x403000, 4096)] ∧
    layout (cfg false 0xFFFFFFFF) isort dlls = .ok (ds, st) ∧ st.placed.map (fun p => (p.addr, p.sec.size)) = [(0x401000, 1), (0x402000, 1), (0x402001, 4096)] := by
  have hx : ((rwPe false 0xFFFFFFFF isort dlls third none_ none).toOption.bind load).map (fun i => i.segs.map fun s => (s.addr, s.bytes.length)) =
      some [(0x401000, 4096), (0x402000, 4096), (0x403000, 4096)] := by decide +kernel
  have hy : (layout (cfg false 0xFFFFFFFF) isort dlls).toOption.map (fun x => x.2.placed.map fun p => (p.addr, p.sec.size)) = some [(0x401000, 1), (0x402000, 1), (0x402001, 4096)] := by decide +kernel
  cases h : rwPe false 0xFFFFFFFF isort dlls third none_ none with
  | error e => rw [h] at hx; cases hx
  | ok file =>
    cases hl : layout (cfg false 0xFFFFFFFF) isort dlls with
    | error e => rw [hl] at hy; cases hy
    | ok x =>
      rw [h] at hx
      rw [hl] at hy
      obtain ⟨img, h1, h2⟩ := Option.map_eq_some_iff.1 hx
      exact ⟨file, img, x.1, x.2, ⟨by decide, by decide⟩, rfl, h1, h2, rfl, Option.some.inj hy⟩

/-- a program that ends where the address space ends -/
def high : List Sec := [⟨str ".text", true, aText, 1, 1, [0xC3]⟩, ⟨str ".bss", true, aBss, 1, 0xDFFF, []⟩]

theorem c63_high : ∃ file, Objects high ∧ rwPe true 0xFFFF0000 isort high third none_ (some fun _ _ => [0xFFFF1000]) = .ok file ∧ load file = none := by
  have hx : ((rwPe true 0xFFFF0000 isort high third none_ (some fun _ _ => [0xFFFF1000])).toOption.map fun f => (load f).isNone) = some true := by decide +kernel
  cases h : rwPe true 0xFFFF0000 isort high third none_ (some fun _ _ => [0xFFFF1000]) with
  | error e => rw [h] at hx; cases hx
  | ok file =>
    rw [h] at hx
    exact ⟨file, ⟨by decide, by decide⟩, rfl, Option.isNone_iff_eq_none.1 (Option.some.inj hx)⟩

end Smlr.Pe
