import Verif.Objf.Archive
set_option autoImplicit false
/-! C55: object files and archives are read as the objects that they hold. -/
namespace Smlr.Objf
open Smlr.Sect (Bytes)
open Smlr.Link (Name)
open Smlr.Reloc (Sym)
open Smlr.Whole (RawRel MSec Module)

/-- C55, objects: of any file that has an object at some offset (so also inside of an archive) the linker gets the sections with their names, flags, alignments, contents and relocations, and the
symbols with their names, values, types and sections. -/
theorem c55_object {f : Bytes} {ofs : Nat} {o : Object} {c : Choice} (E : Encodes f ofs o c) : ∃ m, loadObj f ofs = .ok m ∧ Reads m o := loadObj_ok E

/-- C55, object files -/
theorem c55_file {f : Bytes} {o : Object} {c : Choice} (E : Encodes f 0 o c) (n : Nat) : ∃ m, loadMeta f n = .ok [m] ∧ Reads m o := by
  obtain ⟨m, h1, h2⟩ := loadObj_ok E
  have hb := E.big
  have hh := E.header.2
  rw [encHeader_length E.pad, List.drop_zero] at hh
  refine ⟨m, ?_, h2⟩
  have hr : rd f 0 8 = .ok (f.take 8) := by
    simp only [rd, Nat.zero_mod, List.drop_zero]
    rw [if_pos (by omega)]
  have hne : f.take 8 ≠ Sect.str "!<arch>\n" := by
    intro hc
    have e1 : f.head? = some 0x7F := by
      have : f.head? = (f.take 52).head? := by
        cases f with
        | nil => simp at hb
        | cons => rfl
      rw [this, hh]
      rfl
    have e2 : f.head? = some 0x21 := by
      have : f.head? = (f.take 8).head? := by
        cases f with
        | nil => simp at hb
        | cons => rfl
      rw [this, hc]
      decide +kernel
    rw [e1] at e2
    exact absurd e2 (by decide)
  simp only [loadMeta, hr]
  rw [if_neg hne, h1]

/-- C55, archives: of an archive the objects are read, all of them and in their order, whatever tables stand between them and whether names are short or long.  The loop ends, at the latest
after as many turns as there are members and one more. -/
theorem c55_archive (ms : List (Member × Bytes)) (os : List Object) (hs : (archive ms).length < 2 ^ 31) (hg : ∀ m ∈ ms, m.1.Good ∧ m.2.length = 32)
    (ho : Pairs (fun d o => ∃ c, Encodes d 0 o c) (ms.filterMap (fun m => m.1.object)) os) (n : Nat) (hn : ms.length < n) :
    ∃ mods, loadMeta (archive ms) n = .ok mods ∧ Pairs Reads mods os := by
  obtain ⟨mods, h1, h2⟩ := members_ok hs ms os (Sect.str "!<arch>\n") n rfl (by decide +kernel) hg ho hn
  refine ⟨mods, ?_, h2⟩
  have hr : rd (archive ms) 0 8 = .ok (Sect.str "!<arch>\n") := by
    have hl : 8 ≤ (archive ms).length := by
      simp only [archive, List.length_append]
      have : (Sect.str "!<arch>\n").length = 8 := by decide +kernel
      omega
    simp only [rd, Nat.zero_mod, List.drop_zero]
    rw [if_pos (by omega)]
    congr 1
  simp only [loadMeta, hr]
  rw [if_pos trivial]
  exact h1

/-! ### a defect: the size of a member is not checked -/

/-- an archive with one member, a table, whose size is 4294967236 -/
def exLoop : Bytes := Sect.str "!<arch>\n" ++ padTo 16 (Sect.str "/") ++ List.replicate 32 0x20 ++ Sect.str "4294967236" ++ [0x60, 0x0A]

/-- C55, defect: the offset after a member is computed modulo 2^32, and the linker reads the headers of a file of 68 bytes for ever -/
theorem c55_loop (n : Nat) : loadMeta exLoop n = .error .fuel := by
  have step : ∀ n, members exLoop (n + 1) 8 = members exLoop n 8 := fun n => by
    have h1 : (exLoop.drop 8).take 60 = exLoop.drop 8 := by decide +kernel
    rw [members_step (nlen := 0) (fsz := 4294967236) h1 (by decide +kernel) (by decide +kernel) (by decide +kernel) (by decide +kernel) (by decide +kernel) (by decide) false (by decide +kernel)]
    rfl
  have all : ∀ n, members exLoop n 8 = .error .fuel := fun n => by
    induction n with
    | zero => rfl
    | succ n ih => rw [step, ih]
  have hr : rd exLoop 0 8 = .ok (Sect.str "!<arch>\n") := by
    simp only [rd, Nat.zero_mod, List.drop_zero]
    rw [if_pos (by decide +kernel)]
    congr 1
  simp only [loadMeta, hr]
  rw [if_pos trivial]
  exact all n

/-! ### an object -/

/-- `call foo` and `ret` in .text, 16 bytes of .bss; `main` is in .text -/
def exObj : Object where
  scts := [.null, .bits (Sect.str ".text") true false true 16 [0xE8, 0xFC, 0xFF, 0xFF, 0xFF, 0xC3], .nobits (Sect.str ".bss") true true false 4 16, .syms,
    .strs (0 :: Sect.str "main" ++ 0 :: Sect.str "foo" ++ [0]), .strs (0 :: Sect.str ".text" ++ 0 :: Sect.str ".bss" ++ [0]), .rels 1 [⟨1, 2, 2⟩]]
  syms := [⟨[], 0, 0, 0, 0, 0⟩, ⟨Sect.str "main", 0, 6, 0x12, 0, 1⟩, ⟨Sect.str "foo", 0, 0, 0x10, 0, 0⟩]
  nloc := 1

def exChoice : Choice where
  pad := List.replicate 9 0
  version := 1
  entry := 0
  phoff := 0
  shoff := 138
  flags := 0
  phentsize := 0
  phnum := 0
  shstrndx := 5
  hdrs := [⟨0, 0, 0, 0, 0, 0, 0, 0, 0, 0⟩, ⟨1, 1, 6, 0, 52, 6, 0, 0, 16, 0⟩, ⟨7, 8, 3, 0, 58, 16, 0, 0, 4, 0⟩, ⟨0, 2, 0, 0, 58, 48, 4, 1, 4, 16⟩, ⟨0, 3, 0, 0, 106, 10, 0, 0, 1, 0⟩,
    ⟨0, 3, 0, 0, 116, 12, 0, 0, 1, 0⟩, ⟨0, 9, 0, 0, 130, 8, 3, 1, 4, 8⟩]
  nameOffs := [0, 1, 6]

def exFile : Bytes :=
  encHeader exChoice ++ [0xE8, 0xFC, 0xFF, 0xFF, 0xFF, 0xC3] ++ encSyms exChoice.nameOffs exObj.syms ++ (0 :: Sect.str "main" ++ 0 :: Sect.str "foo" ++ [0]) ++
  (0 :: Sect.str ".text" ++ 0 :: Sect.str ".bss" ++ [0]) ++ [0, 0] ++ encRel ⟨1, 2, 2⟩ ++ exChoice.hdrs.flatMap encShdr

instance (f : Bytes) (o : Nat) (b : Bytes) : Decidable (At f o b) := inferInstanceAs (Decidable (_ ∧ _))
instance (t : Bytes) (k : Nat) (n : Name) : Decidable (Named t k n) := inferInstanceAs (Decidable (_ ∧ _))
instance (fl : Nat) (a w x : Bool) : Decidable (Flags fl a w x) := inferInstanceAs (Decidable (_ ∧ _))

theorem exEncodes : Encodes exFile 0 exObj exChoice where
  short := by decide +kernel
  pad := rfl
  header := by decide +kernel
  shoff := by decide
  count := rfl
  few := by decide
  first := rfl
  strndx := by decide
  table := by
    intro k h hk
    match k, hk with
    | 0, hk => obtain rfl := Option.some.inj hk; exact ⟨by decide +kernel, by constructor <;> decide⟩
    | 1, hk => obtain rfl := Option.some.inj hk; exact ⟨by decide +kernel, by constructor <;> decide⟩
    | 2, hk => obtain rfl := Option.some.inj hk; exact ⟨by decide +kernel, by constructor <;> decide⟩
    | 3, hk => obtain rfl := Option.some.inj hk; exact ⟨by decide +kernel, by constructor <;> decide⟩
    | 4, hk => obtain rfl := Option.some.inj hk; exact ⟨by decide +kernel, by constructor <;> decide⟩
    | 5, hk => obtain rfl := Option.some.inj hk; exact ⟨by decide +kernel, by constructor <;> decide⟩
    | 6, hk => obtain rfl := Option.some.inj hk; exact ⟨by decide +kernel, by constructor <;> decide⟩
    | n + 7, hk => exact absurd hk (by simp [exChoice])
  nloc := by decide
  syms := by
    refine ⟨by simp [exObj], rfl, ?_, by decide⟩
    intro s hs
    simp only [exObj, List.mem_cons, List.not_mem_nil, or_false] at hs
    rcases hs with rfl | rfl | rfl <;> (refine ⟨?_, ?_, ?_⟩ <;> decide)
  one := by
    refine ⟨3, rfl, fun j hj => ?_⟩
    match j, hj with
    | 0, hj => simp [exObj] at hj
    | 1, hj => simp [exObj] at hj
    | 2, hj => simp [exObj] at hj
    | 3, _ => rfl
    | 4, hj => simp [exObj] at hj
    | 5, hj => simp [exObj] at hj
    | 6, hj => simp [exObj] at hj
    | n + 7, hj => simp [exObj] at hj
  rels := by
    intro k t l hk
    match k, hk with
    | 0, hk => simp [exObj] at hk
    | 1, hk => simp [exObj] at hk
    | 2, hk => simp [exObj] at hk
    | 3, hk => simp [exObj] at hk
    | 4, hk => simp [exObj] at hk
    | 5, hk => simp [exObj] at hk
    | 6, hk =>
      simp only [exObj, List.getElem?_cons_succ, List.getElem?_cons_zero, Option.some.injEq, Sct.rels.injEq] at hk
      obtain ⟨rfl, rfl⟩ := hk
      intro r hr
      simp only [List.mem_cons, List.not_mem_nil, or_false] at hr
      subst hr
      refine ⟨?_, ?_, ?_⟩ <;> decide
    | n + 7, hk => simp [exObj] at hk
  each := by
    refine ⟨0 :: Sect.str ".text" ++ 0 :: Sect.str ".bss" ++ [0], rfl, rfl, ?_, ?_⟩
    · intro h hh hn
      simp only [exChoice, List.mem_cons, List.not_mem_nil, or_false] at hh
      rcases hh with rfl | rfl | rfl | rfl | rfl | rfl | rfl
      · exact absurd rfl hn
      · exact ⟨Sect.str ".text", by decide +kernel⟩
      · exact ⟨Sect.str ".bss", by decide +kernel⟩
      all_goals exact ⟨[], by decide +kernel⟩
    · intro k h t hk ht
      match k, hk, ht with
      | 0, hk, ht => obtain rfl := Option.some.inj hk; obtain rfl := Option.some.inj ht; rfl
      | 1, hk, ht =>
        obtain rfl := Option.some.inj hk; obtain rfl := Option.some.inj ht
        exact ⟨rfl, by decide +kernel, by decide +kernel, rfl, rfl, by decide +kernel⟩
      | 2, hk, ht =>
        obtain rfl := Option.some.inj hk; obtain rfl := Option.some.inj ht
        exact ⟨rfl, by decide +kernel, by decide +kernel, rfl, rfl⟩
      | 3, hk, ht =>
        obtain rfl := Option.some.inj hk; obtain rfl := Option.some.inj ht
        refine ⟨rfl, rfl, rfl, rfl, by decide +kernel, _, rfl, ?_⟩
        intro i s k hs hk
        match i, hs, hk with
        | 0, hs, hk => obtain rfl := Option.some.inj hs; obtain rfl := Option.some.inj hk; exact Or.inl ⟨rfl, rfl⟩
        | 1, hs, hk => obtain rfl := Option.some.inj hs; obtain rfl := Option.some.inj hk; exact Or.inr ⟨by decide, by decide +kernel, by decide +kernel⟩
        | 2, hs, hk => obtain rfl := Option.some.inj hs; obtain rfl := Option.some.inj hk; exact Or.inr ⟨by decide, by decide +kernel, by decide +kernel⟩
        | n + 3, hs, _ => exact absurd hs (by simp [exObj])
      | 4, hk, ht =>
        obtain rfl := Option.some.inj hk; obtain rfl := Option.some.inj ht
        exact ⟨rfl, rfl, by decide +kernel⟩
      | 5, hk, ht =>
        obtain rfl := Option.some.inj hk; obtain rfl := Option.some.inj ht
        exact ⟨rfl, rfl, by decide +kernel⟩
      | 6, hk, ht =>
        obtain rfl := Option.some.inj hk; obtain rfl := Option.some.inj ht
        exact ⟨rfl, rfl, rfl, rfl, by simp, by decide +kernel, rfl⟩
      | n + 7, hk, _ => exact absurd hk (by simp [exChoice])

/-- the file is read as the object -/
example : ∃ m, loadMeta exFile 0 = .ok [m] ∧ Reads m exObj := c55_file exEncodes 0

/-- an archive with tables, and the object twice, with a short and with a long name -/
def exArchive : List (Member × Bytes) :=
  [(.table "/" [0, 0, 0, 0], List.replicate 32 0x20), (.file (padTo 16 (Sect.str "a.o/")) exFile, List.replicate 32 0x20), (.table "//" [0x61, 0x2F, 0x0A], List.replicate 32 0x20),
   (.bsd (Sect.str "a_very_long_name.o") exFile, List.replicate 32 0x20)]

example : ∃ mods, loadMeta (archive exArchive) 5 = .ok mods ∧ Pairs Reads mods [exObj, exObj] := by
  refine c55_archive exArchive [exObj, exObj] (by decide +kernel) ?_ ⟨⟨_, exEncodes⟩, ⟨_, exEncodes⟩, trivial⟩ 5 (by decide)
  intro m hm
  simp only [exArchive, List.mem_cons, List.not_mem_nil, or_false] at hm
  rcases hm with rfl | rfl | rfl | rfl
  · exact ⟨Or.inl rfl, rfl⟩
  · exact ⟨⟨by decide +kernel, by decide +kernel, by decide +kernel, by decide +kernel, by decide +kernel, by decide +kernel⟩, rfl⟩
  · exact ⟨Or.inr (Or.inl rfl), rfl⟩
  · exact ⟨(by decide +kernel : 52 ≤ exFile.length), rfl⟩

end Smlr.Objf
