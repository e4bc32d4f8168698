import Verif.Fixup.Write
import Verif.Fixup.Rebase
set_option autoImplicit false
/-! C62: programs for Windows work at other addresses than the one they were linked for. -/
namespace Smlr.Fixup
open Smlr.Sect (Bytes Name str)
open Smlr.Whole (RawRel Item MSec Module Final)

/-- the sections whose relocations have a meaning at load time: not those of the import tables, which hold distances from the start of the image -/
def Imports (n : Name) : Prop := str ".dll_import" <+: n ∨ str ".dll_iat" <+: n

theorem isImport_iff (n : Name) : isImport n = true ↔ Imports n := by
  unfold isImport Imports
  rw [Bool.or_eq_true, List.isPrefixOf_iff_prefix, List.isPrefixOf_iff_prefix]

/-- C62: behind the file `f0` stands a table `T` of the size and at the place given in the headers, followed by zeros up to a multiple of 512 bytes.  It lists words such that if Windows loads
the image at `newBase` rather than `imageBase`, by adding the difference to these words, then the sections that were right for addresses `place` are right for addresses that differ by as
much; the import tables and zeros are left alone -/
theorem c62_rebase (imageBase newBase d : Nat) (hd : (imageBase + d) % 2 ^ 32 = newBase % 2 ^ 32) (tab : List (Item × Nat)) (hp : Placed imageBase tab) (f0 f : Bytes) (size ptr : Nat)
    (hroom : f0.length + 12 * ((tab.map (fun x => x.1.s.rels.length)).sum + 1) < 2 ^ 32) (h : fixups imageBase f0 tab = .ok (f, size, ptr)) :
    ∃ T z l, f = f0 ++ T ++ List.replicate z 0 ∧ size = T.length ∧ ptr = f0.length ∧ 0 < size ∧ z < 512 ∧ (size + z) % 512 = 0 ∧ listed T = some l ∧
      (∀ (mods : List Module) (entry : Link.Name) (place place' : Nat → Nat → Nat), (∀ i j, place' i j + imageBase = place i j + newBase) →
        ∀ x ∈ tab, ¬ Imports x.1.s.sec.name → ∀ i j, place i j = x.2 → ∀ m mem, Final mods entry place i m x.2 x.1.s (bytesAt mem (x.2 - imageBase) x.1.s.sec.size) →
          Final mods entry place' i m (place' i j) x.1.s (bytesAt (rebase d l mem) (x.2 - imageBase) x.1.s.sec.size)) ∧
      (∀ x ∈ tab, Imports x.1.s.sec.name ∨ x.1.s.sec.attrs.nobits = true → ∀ mem,
        bytesAt (rebase d l mem) (x.2 - imageBase) x.1.s.sec.size = bytesAt mem (x.2 - imageBase) x.1.s.sec.size) ∧
      (∀ a ∈ l, ∃ x ∈ tab, x.2 - imageBase ≤ a ∧ a + 4 ≤ x.2 - imageBase + x.1.s.sec.size) := by
  unfold fixups at h
  cases hs : sites imageBase tab with
  | error e => rw [hs] at h; cases h
  | ok l =>
    rw [hs] at h
    have hl := sites_len tab l hs
    have hlt : ∀ a ∈ l, a < 2 ^ 32 := by
      intro a ha
      obtain ⟨x, -, -, r, -, -, rfl⟩ := (sites_mem tab l hs a).1 ha
      unfold Exe.sub32
      omega
    obtain ⟨T, z, ht, hne, hli, hz, hz', -⟩ := table_ok f0 l hlt (by omega)
    have he : (f, size, ptr) = table f0 l := (Except.ok.inj h).symm
    rw [ht] at he
    cases he
    refine ⟨T, z, l, rfl, rfl, rfl, List.length_pos_iff.2 hne, hz, hz', hli, ?_, ?_, ?_⟩
    · intro mods entry place place' hsh x hx hni i j hpl m mem hf
      refine final_rebase mods entry place place' imageBase newBase d hd hsh tab hp l hs x hx ?_ i j hpl m mem hf
      cases hi : isImport x.1.s.sec.name with
      | false => rfl
      | true => exact absurd ((isImport_iff _).1 hi) hni
    · intro x hx hor mem
      refine bytesAt_congr _ _ _ _ (fun k hk => untouched tab hp l hs x hx k hk ?_ d mem)
      intro hn
      rcases hor with hor | hor
      · rw [(isImport_iff _).2 hor, Bool.or_true] at hn
        cases hn
      · rw [hor] at hn
        cases hn
    · intro a ha
      obtain ⟨x, hx, -, r, hr, hr1, rfl⟩ := (sites_mem tab l hs a).1 ha
      obtain ⟨w, hw, hwn⟩ := hp.inside x hx r hr
      have := width_1 _ _ hw hr1
      subst this
      have hrg := hp.range x hx
      refine ⟨x, hx, ?_⟩
      rw [sub_place _ _ _ hrg.1 (by omega)]
      omega

/-- C62: the only programs refused are those with a field that no fixup could describe: one of 16 bits that holds an address, or one without a symbol -/
theorem c62_accepts (imageBase : Nat) (tab : List (Item × Nat)) (hp : Placed imageBase tab) (f0 : Bytes) :
    (∃ r, fixups imageBase f0 tab = .ok r) ↔ ∀ x ∈ tab, ¬ Imports x.1.s.sec.name → x.1.s.sec.attrs.nobits = false → ∀ r ∈ x.1.s.rels, r.sym ≠ 0 ∧ (Reloc.pcRel r.type ∨ Reloc.width r.type = some 4) := by
  have hty : ∀ x ∈ tab, ∀ r ∈ x.1.s.rels, (r.type = 1 ∨ r.type = 2 ∨ r.type = 21) ↔ (Reloc.pcRel r.type ∨ Reloc.width r.type = some 4) := by
    intro x _ r _
    unfold Reloc.pcRel Reloc.width
    constructor
    · rintro (h | h | h) <;> simp [h]
    · rintro ((h | h) | h)
      · simp [h]
      · simp [h]
      · split at h
        · rename_i hm
          simp at hm
          omega
        · split at h <;> cases h
  have hnot : ∀ n : Name, ∀ b : Bool, (b || isImport n) = false ↔ b = false ∧ ¬ Imports n := by
    intro n b
    rw [← isImport_iff]
    cases b <;> simp
  constructor
  · rintro ⟨r, h⟩ x hx hni hnb r' hr'
    unfold fixups at h
    cases hs : sites imageBase tab with
    | error e => rw [hs] at h; cases h
    | ok l =>
      have := sites_types tab l hs x hx ((hnot _ _).2 ⟨hnb, hni⟩) r' hr'
      exact ⟨this.1, (hty x hx r' hr').1 this.2⟩
  · intro h
    obtain ⟨l, hl⟩ := sites_ok (imageBase := imageBase) tab (fun x hx hn r hr => by
      obtain ⟨h1, h2⟩ := (hnot _ _).1 hn
      have := h x hx h2 h1 r hr
      exact ⟨this.1, (hty x hx r hr).2 this.2⟩)
    unfold fixups
    rw [hl]
    exact ⟨_, rfl⟩

/-! ### examples -/

/-- the table of fixups in two pages, in three blocks: the second has an odd number of entries -/
example : (table [7] [0x1001, 0x1006, 0x2FFE, 0x1010]).1.take 37 =
    [7, 0, 16, 0, 0, 12, 0, 0, 0, 1, 48, 6, 48, 0, 32, 0, 0, 12, 0, 0, 0, 254, 63, 0, 0, 0, 16, 0, 0, 12, 0, 0, 0, 16, 48, 0, 0] := by decide +kernel

example : listed [0, 16, 0, 0, 12, 0, 0, 0, 1, 48, 6, 48, 0, 32, 0, 0, 12, 0, 0, 0, 254, 63, 0, 0] = some [0x1001, 0x1006, 0x2FFE] := by decide +kernel

/-- no fixups -/
example : table [7] [] = ([7, 0, 0, 0, 0, 12, 0, 0, 0, 0, 0, 0, 0] ++ List.replicate 500 0, 12, 1) := by decide +kernel

/-- `mov eax, [here + 8]; call here; .long here` at the start of a section -/
def exSec : MSec := ⟨⟨str ".text", true, ⟨false, true, false⟩, 16, 14, [0xA1, 8, 0, 0, 0, 0xE8, 0xFC, 0xFF, 0xFF, 0xFF, 0, 0, 0, 0]⟩, [⟨1, 1, 1⟩, ⟨6, 1, 2⟩, ⟨10, 1, 1⟩]⟩

/-- an entry of the import tables -/
def exImp : MSec := ⟨⟨str ".dll_import_kernel32", true, ⟨true, false, false⟩, 4, 4, [0, 0, 0, 0]⟩, [⟨0, 1, 1⟩]⟩

def exMod : Module := ⟨[none, some exSec, some exImp], [⟨0, 0, 0, 0⟩, ⟨0, 0, 3, 1⟩], 2, fun _ => []⟩

def exTab : List (Item × Nat) := [(⟨0, 1, exSec⟩, 0x401000), (⟨0, 2, exImp⟩, 0x402000)]

def exPlace (b : Nat) (_ j : Nat) : Nat := b + j * 0x1000

/-- the image: at 0x401000 stand the bytes that linking makes of the section -/
def exMem : Mem := fun k => if k < 0x1000 then 0x55 else ([0xA1, 8, 0x10, 0x40, 0, 0xE8, 0xF6, 0xFF, 0xFF, 0xFF, 0, 0x10, 0x40, 0] : Bytes).getD (k - 0x1000) 0x77

theorem exPlaced : Placed 0x400000 exTab := by
  have hc : ∀ rs : List RawRel, (∀ r ∈ rs, Reloc.width r.type = some 4) → rs.Pairwise (fun r r' => r.off + 4 ≤ r'.off) → rs.Pairwise Whole.Clear := by
    intro rs h1 h2
    refine h2.imp_of_mem ?_
    intro a b ha hb hab w w' hw hw'
    rw [h1 a ha] at hw
    rw [h1 b hb] at hw'
    cases hw
    cases hw'
    exact .inl hab
  refine ⟨by decide, by decide, ?_, ?_⟩
  · intro x hx r hr
    have : ∀ x ∈ exTab, ∀ r ∈ x.1.s.rels, Reloc.width r.type = some 4 ∧ r.off + 4 ≤ x.1.s.sec.size := by decide
    exact ⟨4, this x hx r hr⟩
  · intro x hx
    have h1 : ∀ x ∈ exTab, ∀ r ∈ x.1.s.rels, Reloc.width r.type = some 4 := by decide
    have h2 : ∀ x ∈ exTab, x.1.s.rels.Pairwise (fun r r' => r.off + 4 ≤ r'.off) := by decide
    exact hc _ (h1 x hx) (h2 x hx)

theorem exFinal : Final [exMod] [] (exPlace 0x400000) 0 exMod 0x401000 exSec (bytesAt exMem (0x401000 - 0x400000) 14) := by
  refine ⟨by decide, (fun h => by cases h), ?_, ?_⟩
  · intro _ r hr w hw
    have hw4 : ∀ r ∈ exSec.rels, Reloc.width r.type = some 4 := by decide
    rw [hw4 r hr] at hw
    cases hw
    have hs : ∀ r ∈ exSec.rels, r.sym = 1 := by decide
    have hfix : ∀ r ∈ exSec.rels, ((bytesAt exMem (0x401000 - 0x400000) 14).drop r.off |>.take 4).length = ((exSec.sec.data.drop r.off).take 4).length ∧
        ((¬ (r.type = 2 ∨ r.type = 21)) → Reloc.le ((bytesAt exMem (0x401000 - 0x400000) 14).drop r.off |>.take 4) % 2 ^ 32 = (0x401000 + Reloc.le ((exSec.sec.data.drop r.off).take 4)) % 2 ^ 32) ∧
        ((r.type = 2 ∨ r.type = 21) → (Reloc.le ((bytesAt exMem (0x401000 - 0x400000) 14).drop r.off |>.take 4) + (r.off + 0x401000)) % 2 ^ 32 = (0x401000 + Reloc.le ((exSec.sec.data.drop r.off).take 4)) % 2 ^ 32) ∧
        ((exSec.sec.data.drop r.off).take 4).length = 4 := by decide +kernel
    obtain ⟨f1, f2, f3, f4⟩ := hfix r hr
    refine ⟨exPlace 0x400000 0 1, ?_, f1, ?_, ?_⟩
    · rw [hs r hr]
      exact .sect 1 ⟨0, 0, 3, 1⟩ rfl rfl
    · intro h
      rw [f4]
      exact f2 h
    · intro h
      rw [f4]
      exact f3 h
  · intro _ k hk
    have hw4 : ∀ r ∈ exSec.rels, Reloc.width r.type = some 4 := by decide
    have h3 : ∀ r ∈ exSec.rels, ¬ (r.off ≤ k ∧ k < r.off + 4) := fun r hr => hk r hr 4 (hw4 r hr)
    by_cases hk14 : k < 14
    · have : ∀ k, k < 14 → (∀ r ∈ exSec.rels, ¬ (r.off ≤ k ∧ k < r.off + 4)) → (bytesAt exMem (0x401000 - 0x400000) 14)[k]? = exSec.sec.data[k]? := by decide +kernel
      exact this k hk14 h3
    · rw [List.getElem?_eq_none (by rw [bytesAt_len]; omega), List.getElem?_eq_none (by show 14 ≤ k; omega)]

/-- the fixups of the example: the two absolute fields of the code, none of the import tables -/
theorem exSites : sites 0x400000 exTab = .ok [0x1001, 0x100A] := by rfl

/-- loaded at 0x10000000, the section is what it must be there -/
example : Final [exMod] [] (exPlace 0x10000000) 0 exMod (exPlace 0x10000000 0 1) exSec (bytesAt (rebase 0xFC00000 [0x1001, 0x100A] exMem) (0x401000 - 0x400000) 14) :=
  final_rebase [exMod] [] (exPlace 0x400000) (exPlace 0x10000000) 0x400000 0x10000000 0xFC00000 (by decide) (fun i j => by unfold exPlace; omega) exTab exPlaced [0x1001, 0x100A] exSites
    (⟨0, 1, exSec⟩, 0x401000) (List.mem_cons_self ..) (by decide) 0 1 rfl exMod exMem exFinal

/-- and these are its bytes -/
example : bytesAt (rebase 0xFC00000 [0x1001, 0x100A] exMem) 0x1000 14 = [0xA1, 8, 0x10, 0, 0x10, 0xE8, 0xF6, 0xFF, 0xFF, 0xFF, 0, 0x10, 0, 0x10] := by decide +kernel

/-- a program that is refused: `mov ax, here` with 16 bits -/
example : fixups 0x400000 [] [(⟨0, 1, ⟨exSec.sec, [⟨1, 1, 20⟩]⟩⟩, 0x401000)] = .error .size := rfl

end Smlr.Fixup
