import Verif.Printf.Lemmas
set_option autoImplicit false
namespace Smlr.Printf
open Spec

/-- `lmodifier` -/
def lcode : Len → UInt8
  | .none => 0 | .hh => 0x48 | .h => 0x68 | .l => 0x6C | .L => 0x4C | .j => 0x6A | .z => 0x7A | .t => 0x74

/-- the conversion character after `i` has become `d` -/
def ccode : Conv → UInt8
  | .i => 0x64 | k => k.text

def isIntConv : Conv → Prop
  | .c | .s => False
  | _ => True

theorem intValue_unsigned (c sign : UInt8) (l : Len) (v : BitVec 32) (hc : c ≠ 0x64) :
    (intValue c (lcode l) sign v).1.toNat = unsignedArg l v ∧ (intValue c (lcode l) sign v).2 = 0 := by
  unfold intValue
  rw [if_pos hc]
  refine ⟨?_, rfl⟩
  cases l <;> simp [lcode, unsignedArg] <;> omega

theorem bmod_toInt (v : BitVec 32) (n : Nat) (hn : 2 ^ n ∣ 2 ^ 32) : (v.setWidth n).toInt = Int.bmod v.toInt (2 ^ n) := by
  rw [BitVec.toInt_setWidth, BitVec.toInt_eq_toNat_bmod v, Int.bmod_bmod_of_dvd hn]

theorem toInt_cases (v : BitVec 32) : (v.toInt < 0 ∧ (-v).toNat = v.toInt.natAbs) ∨ (¬ v.toInt < 0 ∧ v.toNat = v.toInt.natAbs) := by
  have h := BitVec.toInt_eq_toNat_cond v
  have h2 := BitVec.toNat_neg v
  have h3 := v.isLt
  split at h
  · right; omega
  · left
    refine ⟨by omega, ?_⟩
    rw [h2, Nat.mod_eq_of_lt (by omega)]; omega

theorem intValue_signed (sign : UInt8) (l : Len) (v : BitVec 32) :
    (intValue 0x64 (lcode l) sign v).1.toNat = (signedArg l v).natAbs ∧
    (intValue 0x64 (lcode l) sign v).2 = if signedArg l v < 0 then 0x2D else sign := by
  unfold intValue
  rw [if_neg (by simp)]
  simp only
  have hv : (if lcode l = 0x48 then (v.truncate 8).signExtend 32 else if lcode l = 0x68 then (v.truncate 16).signExtend 32 else v).toInt = signedArg l v := by
    cases l with
    | hh =>
      rw [if_pos (by rfl), BitVec.toInt_signExtend_of_le (by omega)]
      exact bmod_toInt v 8 (by decide)
    | h =>
      rw [if_neg (by decide), if_pos (by rfl), BitVec.toInt_signExtend_of_le (by omega)]
      exact bmod_toInt v 16 (by decide)
    | _ => rfl
  generalize (if lcode l = 0x48 then (v.truncate 8).signExtend 32 else if lcode l = 0x68 then (v.truncate 16).signExtend 32 else v) = u at *
  rw [← hv]
  rcases toInt_cases u with ⟨h1, h2⟩ | ⟨h1, h2⟩
  · rw [if_pos h1, if_pos h1]; exact ⟨h2, rfl⟩
  · rw [if_neg h1, if_neg h1]; exact ⟨h2, rfl⟩

/-- emission order, doprint.c:543-566 -/
theorem emit_ok (k : Sink) (st : St) (ljust lz : Bool) (width : Nat) (W : Int) (hW : W = width ∨ (W = -1 ∧ width = 0))
    (pre ds : Str) (sign : UInt8) (hexpfx : Str) (hpre : (sign ≠ 0 ∧ hexpfx = [] ∧ pre = [sign]) ∨ (sign = 0 ∧ pre = hexpfx ∧ (hexpfx = [] ∨ hexpfx.length = 2)))
    (P3 : Int) (dcnt : Nat) (p : Str) (hP : P3 = ds.length) (hds : List.replicate (P3 - dcnt).toNat 0x30 ++ p.take dcnt = ds)
    (hlz : ljust = true → lz = false) :
    (let len : Int := (if sign ≠ 0 then 1 else 0) + (if hexpfx ≠ [] then 2 else 0) + P3
     let pad := (W - len).toNat
     let st := if !ljust && !lz then rep k 0x20 pad st else st
     let st := if sign ≠ 0 then putc k st sign else putAll k hexpfx st
     let st := if !ljust && lz then rep k 0x30 pad st else st
     let st := rep k 0x30 (P3 - dcnt).toNat st
     let st := putAll k (p.take dcnt) st
     (if ljust then rep k 0x20 pad st else st)) =
    putAll k (if lz = true then pre ++ List.replicate (width - (pre.length + ds.length)) (chr '0') ++ ds else justify ljust width (pre ++ ds)) st := by
  have hlen : (if sign ≠ 0 then 1 else 0) + (if hexpfx ≠ [] then 2 else 0) + P3 = ((pre.length + ds.length : Nat) : Int) := by
    rcases hpre with ⟨h1, h2, h3⟩ | ⟨h1, h2, h3⟩
    · subst h2 h3; simp [h1, hP]; 
    · subst h2; rcases h3 with h3 | h3
      · subst h3; simp [h1, hP]
      · have : pre ≠ [] := by intro e; rw [e] at h3; simp at h3
        simp [h1, hP, this, h3]
  have hpad : (W - ((if sign ≠ 0 then 1 else 0) + (if hexpfx ≠ [] then 2 else 0) + P3)).toNat = width - (pre.length + ds.length) := by
    rw [hlen]; rcases hW with h | ⟨h, h'⟩ <;> omega
  have hsign : ∀ st, (if sign ≠ 0 then putc k st sign else putAll k hexpfx st) = putAll k pre st := by
    intro st
    rcases hpre with ⟨h1, h2, h3⟩ | ⟨h1, h2, h3⟩
    · rw [if_pos h1, h3]; rfl
    · rw [if_neg (by simp [h1]), h2]
  simp only [hpad, hsign, rep_eq, ← putAll_append, hds]
  have hz : chr '0' = 0x30 := rfl
  have hs : chr ' ' = 0x20 := rfl
  rw [hz]
  unfold justify
  simp only [hs, List.length_append]
  cases ljust with
  | true =>
    have := hlz rfl
    subst this
    simp only [Bool.not_true, Bool.false_and, Bool.false_eq_true, if_false, if_true, ← putAll_append]
    rw [← hds]
    simp [putAll_append]
  | false =>
    cases lz with
    | true => 
      simp only [Bool.not_true, Bool.not_false, Bool.true_and, Bool.false_eq_true, if_false, if_true]
      rw [← hds]; simp [putAll_append]
    | false => 
      simp only [Bool.not_false, Bool.true_and, Bool.false_eq_true, if_false, if_true]
      rw [← hds]; simp [putAll_append]

/-- what the flag variables hold after parsing -/
structure FlagsOk (f : Flags) (fs : List Flag) (left : Bool) : Prop where
  ljust : f.ljust = left
  sign : f.sign = (if .plus ∈ fs then 0x2B else if .space ∈ fs then 0x20 else 0)
  alt : f.alt = decide (.hash ∈ fs)
  lz : f.lzeroes = decide (.zero ∈ fs ∧ left = false)

theorem core_ok (k : Sink) (st : St) (c : UInt8) (f : Flags) (fs : List Flag) (left : Bool) (hf : FlagsOk f fs left)
    (width : Nat) (W : Int) (hW : W = width ∨ (W = -1 ∧ width = 0)) (P : Int) (prec : Option Nat)
    (hP : (prec = none ∧ P < 0) ∨ ∃ q : Nat, prec = some q ∧ P = q) (hPb : P < 2 ^ 31 - 2)
    (lmod : UInt8) (v : BitVec 32) (digit : Nat → UInt8) (base : Nat) (hexpfx pre : Str)
    (hb : base = 8 ∨ base = 10 ∨ base = 16) (h0 : ∀ i, i < base → (digit i = 0x30 ↔ i = 0))
    (hbase : (if c = 0x6F then 8 else if decide (c = 0x78 ∨ c = 0x58) = true then 16 else if c = 0x70 then 16 else 10) = base)
    (hdigit : (if c = 0x58 then upperDigit else lowerDigit) = digit)
    (hhex : (if decide (c = 0x78 ∨ c = 0x58) = true ∧ f.alt = true ∧ v ≠ 0 then (if c = 0x58 then [0x30, 0x58] else [0x30, 0x78]) else []) = hexpfx)
    (hpre : ((intValue c lmod f.sign v).2 ≠ 0 ∧ hexpfx = [] ∧ pre = [(intValue c lmod f.sign v).2]) ∨
      ((intValue c lmod f.sign v).2 = 0 ∧ pre = hexpfx ∧ (hexpfx = [] ∨ hexpfx.length = 2))) :
    convInt k st c f W P lmod v = some (putAll k
      (let ds := if f.alt = true ∧ c = 0x6F then forceZero (digits digit base (prec.getD 1) (intValue c lmod f.sign v).1.toNat)
          else digits digit base (prec.getD 1) (intValue c lmod f.sign v).1.toNat
       if .zero ∈ fs ∧ ¬ left = true ∧ prec = none then pre ++ List.replicate (width - (pre.length + ds.length)) (chr '0') ++ ds
       else justify left width (pre ++ ds)) st) := by
  obtain ⟨p, hp, dcnt, hd, P1, hP1, P2, hP2, P3, hP3, ds, hds, hlen, hcat⟩ :=
    digits_part digit base hb h0 (intValue c lmod f.sign v).1.toNat (intValue c lmod f.sign v).1.isLt P prec hP (f.alt = true ∧ c = 0x6F)
  unfold convInt
  simp only
  rw [hbase, hdigit, hhex, hp]
  simp only
  rw [← hds, ← hd, ← hP1, ← hP2, ← hP3]
  have hlz : (if P ≥ 0 then false else f.lzeroes) = decide (.zero ∈ fs ∧ ¬ left = true ∧ prec = none) := by
    rcases hP with ⟨e, hneg⟩ | ⟨q, e, hq⟩
    · rw [if_neg (by omega), hf.lz, e]; simp
    · rw [if_pos (by omega), e]; simp
  have hE := emit_ok k st left (decide (.zero ∈ fs ∧ ¬ left = true ∧ prec = none)) width W hW pre ds _ hexpfx hpre P3 dcnt p hlen hcat
    (by intro h; simp [h])
  rw [hlz, hf.ljust]
  have hpl : dcnt ≤ 11 := by
    have : ∀ (room n : Nat) (acc r : Str), digLoop digit base room n acc = some r → r.length ≤ acc.length + room := by
      intro room
      induction room with
      | zero => intro n acc r h; simp [digLoop] at h
      | succ room ih =>
        intro n acc r h
        unfold digLoop at h
        simp only at h
        split at h
        · have := ih _ _ _ h; simp at this; omega
        · simp only [Option.some.injEq] at h
          rw [← h]; simp
    have := this _ _ _ _ hp
    simp at this
    rw [hd]; split
    · exact this
    · split <;> omega
  have hov : ¬ ((if (intValue c lmod f.sign v).2 ≠ 0 then 1 else 0) + (if hexpfx ≠ [] then 2 else 0) + P3 ≥ (2 : Int) ^ 31) := by
    have h1 : P3 < 2 ^ 31 - 2 := by
      rw [hP3, hP2, hP1]
      split <;> split <;> (try split) <;> omega
    have h2 : (if (intValue c lmod f.sign v).2 ≠ 0 then (1 : Int) else 0) + (if hexpfx ≠ [] then 2 else 0) ≤ 2 := by
      rcases hpre with ⟨h1, h2, h3⟩ | ⟨h1, h2, h3⟩
      · rw [if_pos h1, if_neg (by simp [h2])]; omega
      · rw [if_neg (by simp [h1])]; split <;> omega
    omega
  rw [if_neg hov]
  simp only [decide_eq_true_eq] at hE
  rw [← hE]

theorem lower_ok (i : Nat) : lowerDigit i = lower i ∨ 16 ≤ i := by
  rcases Nat.lt_or_ge i 16 with h | h
  · left
    have : ∀ i : Fin 16, lowerDigit i.val = lower i.val := by decide +kernel
    exact this ⟨i, h⟩
  · right; exact h

theorem upper_ok (i : Nat) : upperDigit i = upper i ∨ 16 ≤ i := by
  rcases Nat.lt_or_ge i 16 with h | h
  · left
    have : ∀ i : Fin 16, upperDigit i.val = upper i.val := by decide +kernel
    exact this ⟨i, h⟩
  · right; exact h

theorem digits_congr (d1 d2 : Nat → UInt8) (base prec n : Nat) (hb : 2 ≤ base) (h : ∀ i, i < base → d1 i = d2 i) :
    digits d1 base prec n = digits d2 base prec n := by
  unfold digits
  have : (Nat.digits base n).reverse.map d1 = (Nat.digits base n).reverse.map d2 := by
    apply List.map_congr_left
    intro i hi
    rw [List.mem_reverse] at hi
    exact h i (Nat.digits_lt_base (by omega) hi)
  simp only [this]

theorem lower_zero : ∀ i : Fin 16, lowerDigit i.val = 0x30 ↔ i.val = 0 := by decide +kernel
theorem upper_zero : ∀ i : Fin 16, upperDigit i.val = 0x30 ↔ i.val = 0 := by decide +kernel

theorem convInt_ok (k : Sink) (st : St) (f : Flags) (fs : List Flag) (left : Bool) (hf : FlagsOk f fs left)
    (width : Nat) (W : Int) (hW : W = width ∨ (W = -1 ∧ width = 0)) (P : Int) (prec : Option Nat)
    (hP : (prec = none ∧ P < 0) ∨ ∃ q : Nat, prec = some q ∧ P = q) (hPb : P < 2 ^ 31 - 2)
    (l : Len) (kc : Conv) (hk : isIntConv kc) (v : BitVec 32)
    (hok : ¬ (.hash ∈ fs ∧ (kc = .x ∨ kc = .X) ∧ v ≠ 0 ∧ unsignedArg l v = 0)) :
    convInt k st (ccode kc) f W P (lcode l) v = some (putAll k (intText fs left width prec l kc v) st) := by
  have lz : ∀ base, base ≤ 16 → ∀ i, i < base → (lowerDigit i = 0x30 ↔ i = 0) := fun base hb i hi => lower_zero ⟨i, by omega⟩
  have uz : ∀ base, base ≤ 16 → ∀ i, i < base → (upperDigit i = 0x30 ↔ i = 0) := fun base hb i hi => upper_zero ⟨i, by omega⟩
  have dl : ∀ base prec n, 2 ≤ base → base ≤ 16 → digits lowerDigit base prec n = digits lower base prec n :=
    fun base prec n h1 h2 => digits_congr _ _ _ _ _ h1 (fun i hi => (lower_ok i).resolve_right (by omega))
  have du : ∀ base prec n, 2 ≤ base → base ≤ 16 → digits upperDigit base prec n = digits upper base prec n :=
    fun base prec n h1 h2 => digits_congr _ _ _ _ _ h1 (fun i hi => (upper_ok i).resolve_right (by omega))
  have hzero : v ≠ 0 → True := fun _ => trivial
  have hsg : f.sign = (if .plus ∈ fs then 0x2B else if .space ∈ fs then 0x20 else 0) := hf.sign
  have sgn : ∀ x : Int, ((if x < 0 then (0x2D : UInt8) else f.sign) ≠ 0 ∧
      (if x < 0 then [chr '-'] else if Flag.plus ∈ fs then [chr '+'] else if Flag.space ∈ fs then [chr ' '] else []) = [if x < 0 then (0x2D : UInt8) else f.sign]) ∨
      ((if x < 0 then (0x2D : UInt8) else f.sign) = 0 ∧
      (if x < 0 then [chr '-'] else if Flag.plus ∈ fs then [chr '+'] else if Flag.space ∈ fs then [chr ' '] else []) = []) := by
    intro x
    rw [hsg]
    by_cases h1 : x < 0
    · left; simp only [if_pos h1]; exact ⟨by decide, rfl⟩
    · simp only [if_neg h1]
      by_cases h2 : Flag.plus ∈ fs
      · left; simp only [if_pos h2]; exact ⟨by decide, rfl⟩
      · simp only [if_neg h2]
        by_cases h3 : Flag.space ∈ fs
        · left; simp only [if_pos h3]; exact ⟨by decide, rfl⟩
        · right; simp only [if_neg h3]; simp
  have hdi : ∀ kc, (kc = .d ∨ kc = .i) → convInt k st 0x64 f W P (lcode l) v = some (putAll k (intText fs left width prec l kc v) st) := by
    intro kc hkc
    obtain ⟨e1, e2⟩ := intValue_signed f.sign l v
    rw [core_ok k st 0x64 f fs left hf width W hW P prec hP hPb (lcode l) v lowerDigit 10 []
      (if signedArg l v < 0 then [chr '-'] else if Flag.plus ∈ fs then [chr '+'] else if Flag.space ∈ fs then [chr ' '] else [])
      (by omega) (lz 10 (by omega)) (by decide) (by rw [if_neg (by decide)]) (by rw [if_neg (by simp)])
      (by rw [e2]
          rcases sgn (signedArg l v) with ⟨h1, h2⟩ | ⟨h1, h2⟩
          · left; exact ⟨h1, rfl, h2⟩
          · right; exact ⟨h1, h2, Or.inl rfl⟩)]
    rw [e1, if_neg (c := f.alt = true ∧ (0x64 : UInt8) = 0x6F) (by simp), dl _ _ _ (by omega) (by omega)]
    rcases hkc with e | e <;> subst e <;> rfl
  have hal : f.alt = decide (Flag.hash ∈ fs) := hf.alt
  cases kc with
  | d => exact hdi .d (Or.inl rfl)
  | i => exact hdi .i (Or.inr rfl)
  | c => exact absurd hk (by simp [isIntConv])
  | s => exact absurd hk (by simp [isIntConv])
  | u =>
    obtain ⟨e1, e2⟩ := intValue_unsigned 0x75 f.sign l v (by decide)
    show convInt k st 0x75 f W P (lcode l) v = _
    rw [core_ok k st 0x75 f fs left hf width W hW P prec hP hPb (lcode l) v lowerDigit 10 [] []
      (by omega) (lz 10 (by omega)) (by decide) (by rw [if_neg (by decide)]) (by rw [if_neg (by simp)])
      (Or.inr ⟨e2, rfl, Or.inl rfl⟩)]
    rw [e1, if_neg (c := f.alt = true ∧ (0x75 : UInt8) = 0x6F) (by simp), dl _ _ _ (by omega) (by omega)]
    rfl
  | o =>
    obtain ⟨e1, e2⟩ := intValue_unsigned 0x6F f.sign l v (by decide)
    show convInt k st 0x6F f W P (lcode l) v = _
    rw [core_ok k st 0x6F f fs left hf width W hW P prec hP hPb (lcode l) v lowerDigit 8 [] []
      (by omega) (lz 8 (by omega)) (by decide) (by rw [if_neg (by decide)]) (by rw [if_neg (by simp)])
      (Or.inr ⟨e2, rfl, Or.inl rfl⟩)]
    rw [e1, dl _ _ _ (by omega) (by omega), hal]
    unfold intText intParts
    simp
  | x =>
    obtain ⟨e1, e2⟩ := intValue_unsigned 0x78 f.sign l v (by decide)
    have hh : (if Flag.hash ∈ fs ∧ unsignedArg l v ≠ 0 then [chr '0', chr 'x'] else []) = (if decide ((0x78 : UInt8) = 0x78 ∨ (0x78 : UInt8) = 0x58) = true ∧ f.alt = true ∧ v ≠ 0 then (if (0x78 : UInt8) = 0x58 then [0x30, 0x58] else [0x30, 0x78]) else []) := by
      rw [hal]
      have : (Flag.hash ∈ fs ∧ unsignedArg l v ≠ 0) ↔ (Flag.hash ∈ fs ∧ v ≠ 0) := by
        constructor
        · rintro ⟨h1, h2⟩
          refine ⟨h1, fun e => h2 ?_⟩
          subst e; cases l <;> rfl
        · rintro ⟨h1, h2⟩
          exact ⟨h1, fun e => hok ⟨h1, Or.inl rfl, h2, e⟩⟩
      by_cases hc : Flag.hash ∈ fs ∧ unsignedArg l v ≠ 0
      · rw [if_pos hc, if_pos ⟨by decide, by simpa using hc.1, (this.1 hc).2⟩]; rfl
      · rw [if_neg hc, if_neg (fun h => hc (this.2 ⟨by simpa using h.2.1, h.2.2⟩))]
    show convInt k st 0x78 f W P (lcode l) v = _
    rw [core_ok k st 0x78 f fs left hf width W hW P prec hP hPb (lcode l) v lowerDigit 16
      (if Flag.hash ∈ fs ∧ unsignedArg l v ≠ 0 then [chr '0', chr 'x'] else []) _
      (by omega) (lz 16 (by omega)) (by decide) (by rw [if_neg (by decide)]) hh.symm
      (Or.inr ⟨e2, rfl, by split <;> simp⟩)]
    rw [e1, dl _ _ _ (by omega) (by omega), if_neg (c := f.alt = true ∧ (0x78 : UInt8) = 0x6F) (by simp)]
    rfl
  | X =>
    obtain ⟨e1, e2⟩ := intValue_unsigned 0x58 f.sign l v (by decide)
    have hh : (if Flag.hash ∈ fs ∧ unsignedArg l v ≠ 0 then [chr '0', chr 'X'] else []) = (if decide ((0x58 : UInt8) = 0x78 ∨ (0x58 : UInt8) = 0x58) = true ∧ f.alt = true ∧ v ≠ 0 then (if (0x58 : UInt8) = 0x58 then [0x30, 0x58] else [0x30, 0x78]) else []) := by
      rw [hal]
      have : (Flag.hash ∈ fs ∧ unsignedArg l v ≠ 0) ↔ (Flag.hash ∈ fs ∧ v ≠ 0) := by
        constructor
        · rintro ⟨h1, h2⟩
          refine ⟨h1, fun e => h2 ?_⟩
          subst e; cases l <;> rfl
        · rintro ⟨h1, h2⟩
          exact ⟨h1, fun e => hok ⟨h1, Or.inr rfl, h2, e⟩⟩
      by_cases hc : Flag.hash ∈ fs ∧ unsignedArg l v ≠ 0
      · rw [if_pos hc, if_pos ⟨by decide, by simpa using hc.1, (this.1 hc).2⟩]; rfl
      · rw [if_neg hc, if_neg (fun h => hc (this.2 ⟨by simpa using h.2.1, h.2.2⟩))]
    show convInt k st 0x58 f W P (lcode l) v = _
    rw [core_ok k st 0x58 f fs left hf width W hW P prec hP hPb (lcode l) v upperDigit 16
      (if Flag.hash ∈ fs ∧ unsignedArg l v ≠ 0 then [chr '0', chr 'X'] else []) _
      (by omega) (uz 16 (by omega)) (by decide) (by rw [if_pos rfl]) hh.symm
      (Or.inr ⟨e2, rfl, by split <;> simp⟩)]
    rw [e1, du _ _ _ (by omega) (by omega), if_neg (c := f.alt = true ∧ (0x58 : UInt8) = 0x6F) (by simp)]
    rfl

end Smlr.Printf
