import Verif.Mach.Spec
import Verif.Exe.Read
set_option autoImplicit false
namespace Smlr.Mach
open Smlr.Sect (Bytes str)
open Smlr.Exe

theorem getD_drop (f : Bytes) (o k : Nat) : (f.drop o).getD k 0 = f.getD (o + k) 0 := by
  simp only [List.getD_eq_getElem?_getD, List.getElem?_drop]

theorem u16_drop (f : Bytes) (o k : Nat) : u16 (f.drop o) k = u16 f (o + k) := by
  unfold u16
  rw [getD_drop, getD_drop]
  rfl

theorem u32_drop (f : Bytes) (o k : Nat) : u32 (f.drop o) k = u32 f (o + k) := by
  unfold u32
  rw [u16_drop, u16_drop]
  rfl

theorem u32_at (f g : Bytes) (o k : Nat) (h : f.drop o = g) : u32 f (o + k) = u32 g k := by rw [← h, u32_drop]

theorem u32_skip (p g : Bytes) (n k : Nat) (h : p.length = n) : u32 (p ++ g) (k + n) = u32 g k := by
  rw [Nat.add_comm, ← u32_drop, ← h, List.drop_left]

theorem n16_len (s : Bytes) (h : s.length ≤ 16) : (n16 s).length = 16 := by
  unfold n16
  rw [List.length_append, List.length_replicate]
  omega

theorem drop_step (f p g : Bytes) (o n : Nat) (h : f.drop o = p ++ g) (hl : p.length = n) : f.drop (o + n) = g := by
  rw [← List.drop_drop, h, ← hl, List.drop_left]

theorem takeWhile_n16 (s : Bytes) (h : (0 : UInt8) ∉ s) : (n16 s).takeWhile (· ≠ 0) = s := by
  unfold n16
  induction s with
  | nil => rfl
  | cons a s ih =>
    have ha : a ≠ 0 := fun e => h (e ▸ List.mem_cons_self ..)
    have hs : (0 : UInt8) ∉ s := fun e => h (List.mem_cons_of_mem _ e)
    have : ∀ m, (s ++ List.replicate m 0).takeWhile (· ≠ (0 : UInt8)) = s := by
      intro m
      clear ih h ha
      induction s with
      | nil => cases m with
        | zero => rfl
        | succ m => rfl
      | cons b s ih =>
        have hb : b ≠ 0 := fun e => hs (e ▸ List.mem_cons_self ..)
        rw [List.cons_append, List.takeWhile_cons_of_pos (by simpa using hb), ih (fun e => hs (List.mem_cons_of_mem _ e))]
    rw [List.cons_append, List.takeWhile_cons_of_pos (by simpa using ha), this]

theorem segCmd_len (name : Bytes) (n a b c d e g : Nat) (h : name.length ≤ 16) : (segCmd name n a b c d e g).length = 56 := by
  unfold segCmd
  simp only [List.length_append, n16_len _ h]
  rfl

theorem sectHdr_len (s t : Bytes) (a b c d : Nat) (h : s.length ≤ 16) (h' : t.length ≤ 16) : (sectHdr s t a b c d).length = 68 := by
  unfold sectHdr
  simp only [List.length_append, n16_len _ h, n16_len _ h']
  rfl

/-- what is read from a segment command -/
theorem seg_read (f : Bytes) (o : Nat) (name : Bytes) (n va vs fo fs mp ip : Nat) (rest : Bytes) (hd : f.drop o = segCmd name n va vs fo fs mp ip ++ rest) (hn : name.length ≤ 16)
    (h0 : (0 : UInt8) ∉ name) (hnn : n ≤ 1) :
    u32 f o = 1 ∧ u32 f (o + 4) = 56 + 68 * n ∧ u32 f (o + 24) = va % 2 ^ 32 ∧ u32 f (o + 28) = vs % 2 ^ 32 ∧ u32 f (o + 32) = fo % 2 ^ 32 ∧ u32 f (o + 36) = fs % 2 ^ 32 ∧
    u32 f (o + 40) = mp % 2 ^ 32 ∧ u32 f (o + 44) = ip % 2 ^ 32 ∧ u32 f (o + 48) = n ∧ cstr f (o + 8) 16 = name := by
  have hk : ∀ l o, u32 (n16 name ++ l) (o + 16) = u32 l o := fun l o => u32_skip _ _ _ _ (n16_len _ hn)
  have e0 := u32_at f _ o 0 hd
  have e1 := u32_at f _ o 4 hd
  have e2 := u32_at f _ o 24 hd
  have e3 := u32_at f _ o 28 hd
  have e4 := u32_at f _ o 32 hd
  have e5 := u32_at f _ o 36 hd
  have e6 := u32_at f _ o 40 hd
  have e7 := u32_at f _ o 44 hd
  have e8 := u32_at f _ o 48 hd
  rw [Nat.add_zero] at e0
  rw [e0, e1, e2, e3, e4, e5, e6, e7, e8]
  unfold segCmd
  simp only [List.append_assoc, u32_skip32, hk, u32_zero]
  refine ⟨by decide, by omega, trivial, trivial, trivial, trivial, trivial, trivial, by omega, ?_⟩
  unfold cstr
  have e9 : f.drop (o + 8) = n16 name ++ (le32 va ++ (le32 vs ++ (le32 fo ++ (le32 fs ++ (le32 mp ++ (le32 ip ++ (le32 n ++ (le32 0 ++ rest)))))))) := by
    apply drop_step f (le32 1 ++ le32 (56 + 68 * n)) _ o 8 _ rfl
    rw [hd]
    unfold segCmd
    simp only [List.append_assoc]
  rw [e9, List.take_append_of_le_length (by rw [n16_len _ hn]; omega), List.take_of_length_le (by rw [n16_len _ hn]; omega), takeWhile_n16 _ h0]

/-- a segment without sections -/
theorem segment_plain (f : Bytes) (o : Nat) (name : Bytes) (va vs fo fs mp ip : Nat) (rest : Bytes) (hd : f.drop o = segCmd name 0 va vs fo fs mp ip ++ rest) (hn : name.length ≤ 16)
    (h0 : (0 : UInt8) ∉ name) (h1 : va % 4096 = 0) (h2 : vs % 4096 = 0) (h3 : fo % 4096 = 0) (h4 : fs ≤ vs) (h5 : fo + fs ≤ f.length) (h6 : va + vs ≤ 2 ^ 32) (h7 : ip &&& mp = ip)
    (b1 : vs < 2 ^ 32) (b2 : fo < 2 ^ 32) (b3 : mp < 2 ^ 32) (b4 : ip < 2 ^ 32) (b5 : va < 2 ^ 32) :
    segment f o = some ⟨⟨va, (f.drop fo).take fs ++ List.replicate (vs - fs) 0, ip % 2 = 1, ip / 2 % 2 = 1, ip / 4 % 2 = 1⟩, name, fo, fs⟩ := by
  obtain ⟨-, r1, r2, r3, r4, r5, r6, r7, r8, r9⟩ := seg_read f o name 0 va vs fo fs mp ip rest hd hn h0 (by omega)
  unfold segment
  simp only [r1, r2, r3, r4, r5, r6, r7, r8, r9, Nat.mod_eq_of_lt b1, Nat.mod_eq_of_lt b2, Nat.mod_eq_of_lt b3, Nat.mod_eq_of_lt b4, Nat.mod_eq_of_lt b5, Nat.mod_eq_of_lt (Nat.lt_of_le_of_lt h4 b1)]
  rw [if_pos ⟨trivial, h1, h2, h3, h4, h5, h6, h7, rfl⟩]

/-- a segment with a section -/
theorem segment_sect (f : Bytes) (o : Nat) (name sn sg : Bytes) (va vs fo fs mp ip sa sz so fl : Nat) (rest : Bytes)
    (hd : f.drop o = segCmd name 1 va vs fo fs mp ip ++ (sectHdr sn sg sa sz so fl ++ rest)) (hn : name.length ≤ 16)
    (h0 : (0 : UInt8) ∉ name) (h1 : va % 4096 = 0) (h2 : vs % 4096 = 0) (h3 : fo % 4096 = 0) (h4 : fs ≤ vs) (h5 : fo + fs ≤ f.length) (h6 : va + vs ≤ 2 ^ 32) (h7 : ip &&& mp = ip)
    (b1 : vs < 2 ^ 32) (b2 : fo < 2 ^ 32) (b3 : mp < 2 ^ 32) (b4 : ip < 2 ^ 32) (b5 : va < 2 ^ 32) (hsn : sn.length ≤ 16) (hsg : sg.length ≤ 16) (b6 : sa < 2 ^ 32) (b7 : sz < 2 ^ 32) (b8 : so < 2 ^ 32)
    (g1 : va ≤ sa) (g2 : sa + sz ≤ va + vs) (g3 : fo ≤ so) (g4 : so + sz ≤ fo + fs) (g5 : sa - va = so - fo) :
    segment f o = some ⟨⟨va, (f.drop fo).take fs ++ List.replicate (vs - fs) 0, ip % 2 = 1, ip / 2 % 2 = 1, ip / 4 % 2 = 1⟩, name, fo, fs⟩ := by
  obtain ⟨-, r1, r2, r3, r4, r5, r6, r7, r8, r9⟩ := seg_read f o name 1 va vs fo fs mp ip _ hd hn h0 (by omega)
  have hs : sectOk f (o + 56 + 68 * 0) va vs fo fs = true := by
    have hk : ∀ l o, u32 (n16 sn ++ l) (o + 16) = u32 l o := fun l o => u32_skip _ _ _ _ (n16_len _ hsn)
    have hk' : ∀ l o, u32 (n16 sg ++ l) (o + 16) = u32 l o := fun l o => u32_skip _ _ _ _ (n16_len _ hsg)
    have hd' := drop_step f _ _ o 56 hd (segCmd_len _ _ _ _ _ _ _ _ hn)
    have e1 := u32_at f _ _ 32 hd'
    have e2 := u32_at f _ _ 36 hd'
    have e3 := u32_at f _ _ 40 hd'
    have e4 := u32_at f _ _ 52 hd'
    unfold sectHdr at e1 e2 e3 e4
    simp only [List.append_assoc, u32_skip32, hk, hk', u32_zero] at e1 e2 e3 e4
    unfold sectOk
    simp only [Nat.mul_zero, Nat.add_zero, e1, e2, e3, e4]
    rw [Nat.mod_eq_of_lt b6, Nat.mod_eq_of_lt b7, Nat.mod_eq_of_lt b8]
    simp only [Bool.and_eq_true, decide_eq_true_eq, beq_iff_eq]
    exact ⟨⟨⟨⟨⟨g1, g2⟩, g3⟩, g4⟩, g5⟩, trivial⟩
  unfold segment
  simp only [r1, r2, r3, r4, r5, r6, r7, r8, r9, Nat.mod_eq_of_lt b1, Nat.mod_eq_of_lt b2, Nat.mod_eq_of_lt b3, Nat.mod_eq_of_lt b4, Nat.mod_eq_of_lt b5, Nat.mod_eq_of_lt (Nat.lt_of_le_of_lt h4 b1)]
  rw [if_pos ⟨trivial, h1, h2, h3, h4, h5, h6, h7, by rw [show List.range 1 = [0] from rfl, List.all_cons, hs]; rfl⟩]

theorem step (f : Bytes) (e n o sz : Nat) (l l' : Loaded) (h1 : u32 f (o + 4) = sz) (h2 : 8 ≤ sz) (h3 : sz % 4 = 0) (h4 : o + sz ≤ e) (h5 : commands f e n (o + sz) = some l)
    (h6 : command f o l = some l') : commands f e (n + 1) o = some l' := by
  unfold commands
  rw [h1, if_pos ⟨h2, h3, h4⟩, h5]
  exact h6

theorem command_seg (f : Bytes) (o : Nat) (l : Loaded) (s : MSeg) (h0 : u32 f o = 1) (h : segment f o = some s) : command f o l = some { l with segs := s :: l.segs } := by
  unfold command
  rw [if_pos h0, h]

theorem command_sym (f : Bytes) (o : Nat) (l : Loaded) (s : List Sym × Nat × Nat) (h0 : u32 f o = 2) (h : symtab f o = some s) : command f o l = some { l with syms := s :: l.syms } := by
  unfold command
  rw [h0, if_neg (by decide), if_pos rfl, h]

theorem command_thread (f : Bytes) (o e : Nat) (rest : Bytes) (l : Loaded) (h : f.drop o = threadCmd e ++ rest) : u32 f (o + 4) = 80 ∧ command f o l = some { l with entries := e % 2 ^ 32 :: l.entries } := by
  have e0 := u32_at f _ o 0 h
  have e1 := u32_at f _ o 4 h
  have e2 := u32_at f _ o 8 h
  have e3 := u32_at f _ o 12 h
  have e4 := u32_at f _ o 56 h
  have hk : ∀ l o, u32 (List.replicate 40 0 ++ l) (o + 40) = u32 l o := fun l o => u32_skip _ _ _ _ rfl
  unfold threadCmd at e0 e1 e2 e3 e4
  simp only [List.append_assoc, u32_skip32, hk, u32_zero] at e0 e1 e2 e3 e4
  rw [Nat.add_zero] at e0
  refine ⟨e1, ?_⟩
  unfold command
  rw [e0, e1, e2, e3, if_neg (by decide), if_neg (by decide), if_pos (by decide), show o + 16 + 4 * 10 = o + 56 from rfl, e4]

/-- the symbols that the linker writes -/
def symsOf (b e : Nat) : List Sym := [⟨str "__mh_execute_header", 3, 1, b⟩, ⟨str "start", 15, 1, e⟩]

theorem symtab_ok (f : Bytes) (o S b e : Nat) (rest : Bytes) (h : f.drop o = symtabCmd S 2 (S + 2 * 12) 28 ++ rest) (hS : f.drop S = nlist 2 3 1 0x10 b ++ (nlist 22 15 1 0 e ++ strings)) (hb : b < 2 ^ 32)
    (he : e < 2 ^ 32) (hS' : S + 52 < 2 ^ 32) (hl : f.length = S + 52) : u32 f o = 2 ∧ u32 f (o + 4) = 24 ∧ symtab f o = some (symsOf b e, S, S + 52) := by
  have e0 := u32_at f _ o 0 h
  have e1 := u32_at f _ o 4 h
  have e2 := u32_at f _ o 8 h
  have e3 := u32_at f _ o 12 h
  have e4 := u32_at f _ o 16 h
  have e5 := u32_at f _ o 20 h
  unfold symtabCmd at e0 e1 e2 e3 e4 e5
  simp only [List.append_assoc, u32_skip32, u32_zero] at e0 e1 e2 e3 e4 e5
  rw [Nat.add_zero] at e0
  rw [Nat.mod_eq_of_lt (by omega)] at e2 e4
  refine ⟨e0, e1, ?_⟩
  have hS2 : f.drop (S + 12) = nlist 22 15 1 0 e ++ strings := drop_step f _ _ S 12 hS rfl
  have hS3 : f.drop (S + 12 + 12) = strings := drop_step f _ _ (S + 12) 12 hS2 rfl
  have n1 : symbol f (S + 24) 28 S = some ⟨str "__mh_execute_header", 3, 1, b⟩ := by
    have a1 := u32_at f _ S 0 hS
    have a2 := u32_at f _ S 8 hS
    have a3 : f.getD (S + 4) 0 = 3 := by rw [← getD_drop, hS]; rfl
    have a4 : f.getD (S + 5) 0 = 1 := by rw [← getD_drop, hS]; rfl
    unfold nlist at a1 a2
    simp only [List.append_assoc, List.cons_append, List.nil_append, u32_skip32, u32_skip16, u32_cons2, u32_zero] at a1 a2
    rw [Nat.add_zero] at a1
    have hd : f.drop (S + 24 + 2) = strings.drop 2 := by rw [← List.drop_drop, hS3]
    unfold symbol cstr
    rw [a1, a2, a3, a4]
    rw [show (2 % 4294967296) = 2 from rfl, hd, if_pos (by decide +kernel), Nat.mod_eq_of_lt hb]
    rfl
  have n2 : symbol f (S + 24) 28 (S + 12) = some ⟨str "start", 15, 1, e⟩ := by
    have a1 := u32_at f _ (S + 12) 0 hS2
    have a2 := u32_at f _ (S + 12) 8 hS2
    have a3 : f.getD (S + 12 + 4) 0 = 15 := by rw [← getD_drop, hS2]; rfl
    have a4 : f.getD (S + 12 + 5) 0 = 1 := by rw [← getD_drop, hS2]; rfl
    unfold nlist at a1 a2
    simp only [List.append_assoc, List.cons_append, List.nil_append, u32_skip32, u32_skip16, u32_cons2, u32_zero] at a1 a2
    rw [Nat.add_zero] at a1
    have hd : f.drop (S + 24 + 22) = strings.drop 22 := by rw [← List.drop_drop, hS3]
    unfold symbol cstr
    rw [a1, a2, a3, a4]
    rw [show (22 % 4294967296) = 22 from rfl, hd, if_pos (by decide +kernel), Nat.mod_eq_of_lt he]
    rfl
  unfold symtab
  simp only [e1, e2, e3, e4, e5]
  rw [if_pos ⟨trivial, by omega, by omega⟩]
  have : symbols f (S + 2 * 12) (28 % 4294967296) S (2 % 4294967296) = some (symsOf b e) := by
    show symbols f (S + 24) 28 S 2 = _
    simp only [symbols, n1, n2]
    rfl
  rw [this]

end Smlr.Mach
