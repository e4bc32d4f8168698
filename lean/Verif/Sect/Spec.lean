import Verif.Sect.Model
set_option autoImplicit false
namespace Smlr.Sect

/-- sections as they come from object files: 32-bit sizes and alignments, and the contents have the section's size -/
def WF (c : Cfg) (ss : List Sec) : Prop :=
  c.origin < 2 ^ 32 ∧ (c.fmt = .dosExeSmall → c.origin ≤ 0x10000) ∧ c.relod.length < 2 ^ 32 ∧
  ∀ s ∈ ss, s.size < 2 ^ 32 ∧ s.align < 2 ^ 32 ∧ (s.attrs.nobits = false → s.data.length = s.size)

/-- a section with the name of one that is part of the program is part of the program -/
def Uniform (c : Cfg) (ss : List Sec) : Prop :=
  (∀ s ∈ ss, ∀ t ∈ ss, s.name = t.name → s.alloc = true → t.alloc = true) ∧
  (c.fmt = .dosExeUnreal → ∀ s ∈ ss, s.name = str ".relod" → s.alloc = true)

/-- what C guarantees of `qsort` with `SectDescCmp` -/
def Sorts (sort : List Desc → List Desc) : Prop := ∀ l, (sort l).Perm l ∧ (sort l).Pairwise (fun p q => cmp p q ≤ 0)

/-- the section that the linker makes for the unreal format -/
def made (c : Cfg) : List Sec :=
  if c.fmt = .dosExeUnreal ∧ c.relod.length ≠ 0 then [⟨str ".relod", true, ⟨false, false, false⟩, 4, c.relod.length, c.relod⟩] else []

/-- is the section present in the file? -/
def InFile (c : Cfg) (s : Sec) : Prop := s.attrs.nobits = false ∨ c.useBss = false

/-- what the section must contain -/
def contents (s : Sec) : Bytes := if s.attrs.nobits then List.replicate s.size 0 else s.data

/-- the alignment that the linker documents: at most 4 for code in 16-bit segments, 4 for the relocation tables of the huge format, else what the section asks for -/
def Aligned (c : Cfg) (s : Sec) (addr : Nat) : Prop :=
  if (c.fmt = .dosComTiny ∨ c.fmt = .flat16 ∨ c.fmt = .dosExeSmall) ∧ s.attrs.exec = true then (s.align ∣ addr ∨ s.align = 0 ∨ (s.align > 4 ∧ 4 ∣ addr))
  else if c.fmt = .dosExeHuge ∧ (s.name = str ".relot" ∨ s.name = str ".relod") then 4 ∣ addr
  else s.align ∣ addr ∨ s.align = 0

/-- position in the file, after the header, of a section: `base` is that of the data segment of the small format -/
def position (c : Cfg) (base : Nat) (p : Place) : Nat :=
  if c.fmt = .dosExeSmall ∧ p.sec.attrs.exec = false then base + p.addr else p.addr - c.origin

/-- sections of the same segment; only the small format has two -/
def SameSegment (c : Cfg) (p q : Place) : Prop := c.fmt = .dosExeSmall → p.sec.attrs.exec = q.sec.attrs.exec

/-- `sp` is the least address and the greatest end of the sections `l` -/
def Hull (sp : Nat × Nat) (l : List Place) : Prop :=
  (∀ p ∈ l, sp.1 ≤ p.addr ∧ p.addr + p.sec.size ≤ sp.2) ∧ (∃ p ∈ l, p.addr = sp.1) ∧ (∃ p ∈ l, p.addr + p.sec.size = sp.2)

/-- an underscore stands also for a dot -/
def Matches (x m : Name) : Prop := x.length = m.length ∧ ∀ i, ∀ h : i < x.length, ∀ h' : i < m.length, x[i] = m[i] ∨ (x[i] = 0x5F ∧ m[i] = 0x2E)

end Smlr.Sect
