import Verif.Objf.Lemmas
set_option autoImplicit false
/-! Lemmas for C55: archives. -/
namespace Smlr.Objf
open Smlr.Sect (Bytes)
open Smlr.Link (Name)
open Smlr.Reloc (Sym)
open Smlr.Whole (RawRel MSec Module)

/-! ### decimal numbers -/

theorem digit_test : ∀ k : Fin 10, 0x30 ≤ UInt8.ofNat (0x30 + k.val) ∧ UInt8.ofNat (0x30 + k.val) ≤ 0x39 ∧ (UInt8.ofNat (0x30 + k.val)).toNat = 0x30 + k.val := by decide +kernel

theorem digits_digit {k : Nat} (hk : k < 10) (r : Bytes) (a : Nat) (ha : a * 10 + k < 2 ^ 32) : digits (UInt8.ofNat (0x30 + k) :: r) a = digits r (a * 10 + k) := by
  obtain ⟨h1, h2, h3⟩ := digit_test ⟨k, hk⟩
  simp only [digits]
  simp only at h1 h2 h3
  rw [if_pos ⟨h1, h2⟩, h3, show a * 10 + (0x30 + k) - 0x30 = a * 10 + k from by omega, Nat.mod_eq_of_lt ha]

theorem digits_decimal (n : Nat) (hn : n < 2 ^ 32) (r : Bytes) : digits (decimal n ++ r) 0 = digits r n := by
  induction n using Nat.strongRecOn generalizing r with
  | ind n ih =>
    unfold decimal
    by_cases h : n < 10
    · rw [if_pos h, List.singleton_append, digits_digit h r 0 (by omega)]
      simp
    · rw [if_neg h, List.append_assoc, ih (n / 10) (by omega) (by omega), List.singleton_append, digits_digit (by omega) r _ (by omega)]
      congr 1
      omega

theorem digits_spaces (k n : Nat) : digits (List.replicate k 0x20) n = n := by
  cases k with
  | zero => rfl
  | succ k => simp [List.replicate_succ, digits]

theorem decimal_length : ∀ (k n : Nat), n < 10 ^ (k + 1) → (decimal n).length ≤ k + 1
  | 0, n, h => by
    unfold decimal
    rw [if_pos (by omega)]
    simp
  | k + 1, n, h => by
    unfold decimal
    by_cases h1 : n < 10
    · rw [if_pos h1]
      simp
    · rw [if_neg h1]
      have := decimal_length k (n / 10) (by rw [Nat.pow_succ] at h; omega)
      simp
      omega

theorem padTo_length {n : Nat} {b : Bytes} (h : b.length ≤ n) : (padTo n b).length = n := by
  simp [padTo]
  omega

/-! ### one member -/

/-- the header of a member -/
def head (m : Member) (mid : Bytes) : Bytes := m.name ++ (mid ++ (padTo 10 (decimal m.body.length) ++ [0x60, 0x0A]))

theorem enc_eq (m : Member) (mid : Bytes) : m.enc mid = head m mid ++ (m.body ++ (if m.body.length % 2 = 1 then [0x0A] else [])) := by
  simp only [Member.enc, head, List.append_assoc]

theorem name_length {m : Member} (hg : m.Good) (hb : m.body.length < 2 ^ 31) : m.name.length = 16 := by
  cases m with
  | file n d => exact hg.1
  | bsd l d =>
    have hl : l.length < 10 ^ (9 + 1) := by
      simp only [Member.body, List.length_append] at hb
      omega
    have := decimal_length 9 l.length hl
    exact padTo_length (by simp; omega)
  | table n d =>
    rcases hg with rfl | rfl | rfl <;> rfl

theorem size_length {m : Member} (hb : m.body.length < 2 ^ 31) : (padTo 10 (decimal m.body.length)).length = 10 :=
  padTo_length (decimal_length 9 _ (by omega))

theorem head_length {m : Member} {mid : Bytes} (hg : m.Good) (hb : m.body.length < 2 ^ 31) (hm : mid.length = 32) : (head m mid).length = 60 := by
  simp [head, name_length hg hb, size_length hb, hm]

/-- how many bytes of a long name stand before the data -/
def Member.skip : Member → Nat
  | .bsd l _ => l.length
  | _ => 0

/-- whether the member is an object -/
def Member.isObj : Member → Bool
  | .table _ _ => false
  | _ => true

theorem body_obj {m : Member} {d : Bytes} (h : m.object = some d) : m.isObj = true ∧ ∃ l, m.body = l ++ d ∧ l.length = m.skip := by
  cases m with
  | file n x => simp only [Member.object, Option.some.injEq] at h; subst h; exact ⟨rfl, [], rfl, rfl⟩
  | bsd l x => simp only [Member.object, Option.some.injEq] at h; subst h; exact ⟨rfl, l, rfl, rfl⟩
  | table n x => simp [Member.object] at h

theorem body_table {m : Member} (h : m.object = none) : m.isObj = false := by
  cases m <;> simp_all [Member.object, Member.isObj]

theorem skip_le (m : Member) : m.skip ≤ m.body.length := by
  cases m <;> simp [Member.skip, Member.body]

/-- the step of the loop -/
theorem members_step {f : Bytes} {ofs n nlen fsz : Nat} {fh : Bytes} (h1 : (f.drop ofs).take 60 = fh) (h2 : fh.length = 60) (h3 : fh.getD 58 0 = 0x60) (h4 : fh.getD 59 0 = 0x0A)
    (h5 : (if fh.take 3 = [0x23, 0x31, 0x2F] then digits ((fh.drop 3).take 13) 0 else 0) = nlen) (h6 : digits ((fh.drop 48).take 10) 0 = fsz) (h7 : nlen ≤ fsz) (b : Bool)
    (h8 : (fh.take 16 ≠ spaces "//" ∧ fh.take 16 ≠ spaces "/" ∧ fh.take 16 ≠ spaces "__.SYMDEF") ↔ b = true) :
    members f (n + 1) ofs =
      (let fofs := (ofs + 60 + nlen) % 2 ^ 32
       let e := (fofs + (fsz - nlen)) % 2 ^ 32
       let next := (e + e % 2) % 2 ^ 32
       if b then
         if fsz - nlen < 52 then .error .format
         else match loadObj f fofs with
           | .error e => .error e
           | .ok m =>
             match members f n next with
             | .error e => .error e
             | .ok l => .ok (m :: l)
       else members f n next) := by
  have e3 : ¬ (fh.getD 58 0 ≠ 0x60 ∨ fh.getD 59 0 ≠ 0x0A) := by rw [h3, h4]; simp
  rw [members]
  simp only [h1]
  rw [if_neg (by rw [h2]; simp), if_neg e3]
  simp only [h5, h6]
  rw [if_neg (by omega)]
  by_cases hb : b = true
  · rw [if_pos (h8.2 hb), if_pos hb]
    rfl
  · rw [if_neg (fun x => hb (h8.1 x)), if_neg hb]

theorem head_take16 {m : Member} {mid : Bytes} (hn : m.name.length = 16) : (head m mid).take 16 = m.name := by
  rw [head, ← hn, List.take_left]

theorem head_special {m : Member} {mid : Bytes} (hg : m.Good) (hb : m.body.length < 2 ^ 31) :
    ((head m mid).take 16 ≠ spaces "//" ∧ (head m mid).take 16 ≠ spaces "/" ∧ (head m mid).take 16 ≠ spaces "__.SYMDEF") ↔ m.isObj = true := by
  rw [head_take16 (name_length hg hb)]
  cases m with
  | file n d =>
    obtain ⟨-, -, g1, g2, g3, -⟩ := hg
    exact ⟨fun _ => rfl, fun _ => ⟨g1, g2, g3⟩⟩
  | bsd l d =>
    refine ⟨fun _ => rfl, fun _ => ⟨?_, ?_, ?_⟩⟩ <;>
    · intro hc
      have := congrArg List.head? hc
      revert this
      simp only [Member.name, padTo, List.cons_append, List.head?_cons]
      decide +kernel
  | table n d =>
    rcases hg with rfl | rfl | rfl
    · exact ⟨fun h => absurd rfl h.2.1, fun h => by simp [Member.isObj] at h⟩
    · exact ⟨fun h => absurd rfl h.1, fun h => by simp [Member.isObj] at h⟩
    · exact ⟨fun h => absurd rfl h.2.2, fun h => by simp [Member.isObj] at h⟩

theorem head_nlen {m : Member} {mid : Bytes} (hg : m.Good) (hb : m.body.length < 2 ^ 31) :
    (if (head m mid).take 3 = [0x23, 0x31, 0x2F] then digits (((head m mid).drop 3).take 13) 0 else 0) = m.skip := by
  have hn := name_length hg hb
  have e3 : (head m mid).take 3 = m.name.take 3 := by rw [head, List.take_append_of_le_length (by omega)]
  have e13 : ((head m mid).drop 3).take 13 = m.name.drop 3 := by
    rw [head, List.drop_append_of_le_length (by omega), List.take_append_of_le_length (by simp [hn]), List.take_of_length_le (by simp [hn])]
  rw [e3, e13]
  cases m with
  | file n d => exact if_neg (show n.take 3 ≠ _ from hg.2.1)
  | bsd l d =>
    rw [if_pos (by simp [Member.name, padTo])]
    simp only [Member.name, padTo, List.cons_append, List.nil_append, List.drop_succ_cons, List.drop_zero]
    simp only [Member.body, List.length_append] at hb
    rw [digits_decimal _ (by omega), digits_spaces]
    rfl
  | table n d =>
    rcases hg with rfl | rfl | rfl
    · exact if_neg (by decide +kernel : (padTo 16 (Sect.str "/")).take 3 ≠ [0x23, 0x31, 0x2F])
    · exact if_neg (by decide +kernel : (padTo 16 (Sect.str "//")).take 3 ≠ [0x23, 0x31, 0x2F])
    · exact if_neg (by decide +kernel : (padTo 16 (Sect.str "__.SYMDEF")).take 3 ≠ [0x23, 0x31, 0x2F])

theorem head_fsz {m : Member} {mid : Bytes} (hg : m.Good) (hb : m.body.length < 2 ^ 31) (hm : mid.length = 32) : digits (((head m mid).drop 48).take 10) 0 = m.body.length := by
  have hn := name_length hg hb
  have e : ((head m mid).drop 48).take 10 = padTo 10 (decimal m.body.length) := by
    rw [head, ← List.append_assoc, show 48 = (m.name ++ mid).length from by simp [hn, hm], List.drop_left]
    rw [List.take_append_of_le_length (by rw [size_length hb]; omega), List.take_of_length_le (by rw [size_length hb]; omega)]
  rw [e, padTo, digits_decimal _ (by omega), digits_spaces]

theorem head_fmag {m : Member} {mid : Bytes} (hg : m.Good) (hb : m.body.length < 2 ^ 31) (hm : mid.length = 32) :
    (head m mid).getD 58 0 = 0x60 ∧ (head m mid).getD 59 0 = 0x0A := by
  have hn := name_length hg hb
  have hl : (m.name ++ (mid ++ padTo 10 (decimal m.body.length))).length = 58 := by simp [hn, hm, size_length hb]
  have e : head m mid = (m.name ++ (mid ++ padTo 10 (decimal m.body.length))) ++ [0x60, 0x0A] := by simp only [head, List.append_assoc]
  rw [e]
  exact ⟨getD_skip hl 0, getD_skip hl 1⟩

theorem Encodes.shift {f d : Bytes} {ofs : Nat} {o : Object} {c : Choice} (E : Encodes d 0 o c) (hf : f.length < 2 ^ 31) (h : At f ofs d) : Encodes f ofs o c := by
  have tr : ∀ {p : Nat} {b : Bytes}, At d (0 + p) b → At f (ofs + p) b := fun {p b} hp => by
    rw [Nat.zero_add] at hp
    exact h.trans hp
  refine ⟨hf, E.pad, ?_, E.shoff, E.count, E.few, E.first, E.strndx, ?_, E.nloc, E.syms, E.one, E.rels, ?_⟩
  · have := tr (p := 0) E.header
    exact this
  · intro k x hk
    obtain ⟨h1, h2⟩ := E.table k x hk
    rw [Nat.add_assoc] at h1 ⊢
    exact ⟨tr h1, h2⟩
  · obtain ⟨tab, t1, t2, t3, t4⟩ := E.each
    refine ⟨tab, t1, t2, t3, fun k x t hx ht => ?_⟩
    have D := t4 k x t hx ht
    cases t with
    | null => exact D
    | bits => exact ⟨D.1, D.2.1, D.2.2.1, D.2.2.2.1, D.2.2.2.2.1, tr D.2.2.2.2.2⟩
    | nobits => exact D
    | syms => exact ⟨D.1, D.2.1, D.2.2.1, D.2.2.2.1, tr D.2.2.2.2.1, D.2.2.2.2.2⟩
    | strs => exact ⟨D.1, D.2.1, tr D.2.2⟩
    | rels => exact ⟨D.1, D.2.1, D.2.2.1, D.2.2.2.1, D.2.2.2.2.1, tr D.2.2.2.2.2.1, D.2.2.2.2.2.2⟩

theorem at_mid (a b r : Bytes) : At (a ++ (b ++ r)) a.length b := by
  refine ⟨by simp, ?_⟩
  rw [List.drop_left, List.take_left]

theorem Encodes.big {d : Bytes} {o : Object} {c : Choice} (E : Encodes d 0 o c) : 52 ≤ d.length := by
  have := E.header.1
  rw [encHeader_length E.pad] at this
  omega

theorem members_ok {f : Bytes} (hf : f.length < 2 ^ 31) : ∀ (ms : List (Member × Bytes)) (os : List Object) (pre : Bytes) (n : Nat),
    f = pre ++ ms.flatMap (fun m => m.1.enc m.2) → pre.length % 2 = 0 → (∀ m ∈ ms, m.1.Good ∧ m.2.length = 32) →
    Pairs (fun d o => ∃ c, Encodes d 0 o c) (ms.filterMap (fun m => m.1.object)) os → ms.length < n →
    ∃ mods, members f n pre.length = .ok mods ∧ Pairs Reads mods os
  | [], os, pre, n, e, _, _, hp, hn => by
    cases n with
    | zero => simp at hn
    | succ n =>
      refine ⟨[], ?_, ?_⟩
      · have : ((f.drop pre.length).take 60).length ≠ 60 := by rw [e]; simp
        rw [members]
        simp only
        rw [if_pos this]
      · cases os with
        | nil => trivial
        | cons => exact absurd hp (by simp [Pairs])
  | (m, mid) :: ms, os, pre, n, e, hev, hg, hp, hn => by
    cases n with
    | zero => simp at hn
    | succ n =>
      obtain ⟨g1, g2⟩ := hg (m, mid) List.mem_cons_self
      simp only at g1 g2
      rw [List.flatMap_cons] at e
      simp only at e
      have hb : m.body.length < 2 ^ 31 := by
        have hl := congrArg List.length e
        rw [enc_eq] at hl
        simp only [List.length_append] at hl
        omega
      have hh := head_length g1 hb g2
      have hs := skip_le m
      have e1 : f = pre ++ (head m mid ++ ((m.body ++ (if m.body.length % 2 = 1 then [0x0A] else [])) ++ ms.flatMap (fun m => m.1.enc m.2))) := by
        rw [e, enc_eq, List.append_assoc]
      have hd : (f.drop pre.length).take 60 = head m mid := by
        rw [e1, List.drop_left, ← hh, List.take_left]
      have hfl : f.length = pre.length + (60 + (m.body.length + m.body.length % 2 + (ms.flatMap (fun m => m.1.enc m.2)).length)) := by
        have hl := congrArg List.length e1
        simp only [List.length_append, hh] at hl
        rw [hl]
        by_cases ho : m.body.length % 2 = 1
        · simp [ho]
        · have : m.body.length % 2 = 0 := by omega
          simp [this]
      have hstep := members_step (n := n) hd hh (head_fmag g1 hb g2).1 (head_fmag g1 hb g2).2 (head_nlen g1 hb) (head_fsz g1 hb g2) hs m.isObj (head_special g1 hb)
      have ef : (pre.length + 60 + m.skip) % 2 ^ 32 = pre.length + 60 + m.skip := Nat.mod_eq_of_lt (by omega)
      have ee : (pre.length + 60 + m.skip + (m.body.length - m.skip)) % 2 ^ 32 = pre.length + 60 + m.body.length := by
        rw [Nat.mod_eq_of_lt (by omega)]
        omega
      have ex : (pre.length + 60 + m.body.length + (pre.length + 60 + m.body.length) % 2) % 2 ^ 32 = pre.length + 60 + m.body.length + m.body.length % 2 := by
        rw [Nat.mod_eq_of_lt (by omega)]
        omega
      simp only [ef, ee, ex] at hstep
      have hnext : (pre ++ m.enc mid).length = pre.length + 60 + m.body.length + m.body.length % 2 := by
        rw [enc_eq]
        simp only [List.length_append, hh]
        by_cases ho : m.body.length % 2 = 1
        · simp [ho]; omega
        · have : m.body.length % 2 = 0 := by omega
          simp [this]; omega
      have hgs : ∀ m ∈ ms, m.1.Good ∧ m.2.length = 32 := fun x hx => hg x (List.mem_cons_of_mem _ hx)
      have hne : (pre ++ m.enc mid).length % 2 = 0 := by rw [hnext]; omega
      have hnl : ms.length < n := by simpa using hn
      cases ho : m.object with
      | none =>
        rw [List.filterMap_cons] at hp
        simp only [ho] at hp
        obtain ⟨mods, i1, i2⟩ := members_ok hf ms os (pre ++ m.enc mid) n (by rw [e, List.append_assoc]) hne hgs hp hnl
        rw [hnext] at i1
        refine ⟨mods, ?_, i2⟩
        rw [hstep, body_table ho]
        simpa using i1
      | some d =>
        rw [List.filterMap_cons] at hp
        simp only [ho] at hp
        cases os with
        | nil => exact absurd hp (by simp [Pairs])
        | cons o os =>
          obtain ⟨⟨c, E⟩, hp⟩ := hp
          obtain ⟨b1, l, b2, b3⟩ := body_obj ho
          obtain ⟨mods, i1, i2⟩ := members_ok hf ms os (pre ++ m.enc mid) n (by rw [e, List.append_assoc]) hne hgs hp hnl
          rw [hnext] at i1
          have hat : At f (pre.length + 60 + m.skip) d := by
            have e2 : f = (pre ++ (head m mid ++ l)) ++ (d ++ ((if m.body.length % 2 = 1 then [0x0A] else []) ++ ms.flatMap (fun m => m.1.enc m.2))) := by
              rw [e1, b2]
              simp only [List.append_assoc]
            have e3 : (pre ++ (head m mid ++ l)).length = pre.length + 60 + m.skip := by
              simp only [List.length_append, hh, b3]
              omega
            rw [e2, ← e3]
            exact at_mid _ _ _
          obtain ⟨mo, l1, l2⟩ := loadObj_ok (E.shift hf hat)
          have hdl : m.body.length = m.skip + d.length := by rw [b2, List.length_append, b3]
          refine ⟨mo :: mods, ?_, l2, i2⟩
          rw [hstep, b1]
          have := E.big
          rw [if_pos rfl, if_neg (by omega), l1]
          simp only [i1]

end Smlr.Objf
