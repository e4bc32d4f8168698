import Verif.Printf.Parse
set_option autoImplicit false
/-
C11: printf's integer, character and string conversions print what the C standard prescribes.
-/
namespace Smlr.Printf
open Spec

theorem flags_head (fs : List Flag) (c : UInt8) (r : Str) (h : c ≠ 0x25) :
    ∃ c' r', fs.map Flag.text ++ c :: r = c' :: r' ∧ c' ≠ 0x25 := by
  cases fs with
  | nil => exact ⟨c, r, rfl, h⟩
  | cons x fs => exact ⟨_, _, rfl, by cases x <;> decide +kernel⟩

/-- the choice made by the conversion character -/
def dispatch (k : Sink) (fuel : Nat) (st : St) (rest : Str) (vl : List Arg) (f : Flags) (W P : Int) (lmod c : UInt8) : Option (St × Int) :=
  if c = 0x6E then none
  else
    let c := if c = 0x69 then 0x64 else c
    if c ∉ [0x64, 0x6F, 0x75, 0x78, 0x58, 0x63, 0x73, 0x70, 0x65, 0x45, 0x66, 0x46, 0x67, 0x47] then some (st, -1)
    else if c = 0x63 then
      match vl with
      | .int v :: vl => doprint k fuel rest vl (convChar k st f W v)
      | _ => none
    else if c = 0x73 then
      match vl with
      | .str s :: vl =>
        match convStr k st f W P s with
        | some st => doprint k fuel rest vl st
        | none => none
      | _ => none
    else if c ∈ [0x65, 0x45, 0x66, 0x46, 0x67, 0x47] then none
    else
      match vl with
      | .int v :: vl =>
        match convInt k st c f W P lmod v with
        | some st => doprint k fuel rest vl st
        | none => none
      | _ => none

theorem dispatch_ok (k : Sink) (fuel : Nat) (st : St) (rest : Str) (vl vl' : List Arg) (f : Flags) (fs : List Flag) (left : Bool)
    (hf : FlagsOk f fs left) (width : Nat) (W : Int) (hW : W = width ∨ (W = -1 ∧ width = 0)) (P : Int) (prec : Option Nat)
    (hP : (prec = none ∧ P < 0) ∨ ∃ q : Nat, prec = some q ∧ P = q) (hPb : P < 2 ^ 31 - 2) (l : Len) (kc : Conv) (s : Str)
    (ho : convOut fs left width prec l kc vl = some (s, vl'))
    (hok : ∀ v vl', vl = .int v :: vl' → ¬ (.hash ∈ fs ∧ (kc = .x ∨ kc = .X) ∧ v ≠ 0 ∧ unsignedArg l v = 0)) :
    dispatch k fuel st rest vl f W P (lcode l) kc.text = doprint k fuel rest vl' (putAll k s st) := by
  have hint : isIntConv kc → ∀ v vl1, dispatch k fuel st rest (.int v :: vl1) f W P (lcode l) kc.text =
        (match convInt k st (ccode kc) f W P (lcode l) v with
        | some st => doprint k fuel rest vl1 st
        | none => none) := by
    intro hk v vl1
    cases kc <;> first | rfl | exact absurd hk (by simp [isIntConv])
  have hmain : isIntConv kc → (∀ v vl1, vl = .int v :: vl1 → s = intText fs left width prec l kc v ∧ vl' = vl1) →
      (∃ v vl1, vl = .int v :: vl1) → dispatch k fuel st rest vl f W P (lcode l) kc.text = doprint k fuel rest vl' (putAll k s st) := by
    rintro hk h ⟨v, vl1, e⟩
    obtain ⟨h1, h2⟩ := h v vl1 e
    subst e h1 h2
    rw [hint hk]
    rw [convInt_ok k st f fs left hf width W hW P prec hP hPb l kc hk v (hok v vl' rfl)]
  cases kc with
  | c =>
    match vl, ho with
    | .int v :: vl, ho =>
      simp only [convOut, Option.some.injEq, Prod.mk.injEq] at ho
      show doprint k fuel rest vl (convChar k st f W v) = _
      rw [convChar_ok k st f fs left hf width W hW, ho.1, ho.2]
    | [], ho => simp [convOut] at ho
    | .str _ :: _, ho => simp [convOut] at ho
  | s =>
    match vl, ho with
    | .str (some t) :: vl, ho =>
      simp only [convOut] at ho
      split at ho
      · rename_i hl
        simp only [Option.some.injEq, Prod.mk.injEq] at ho
        show (match convStr k st f W P (some t) with | some st => doprint k fuel rest vl st | none => none) = _
        rw [convStr_ok k st f fs left hf width W hW P prec hP t hl]
        obtain ⟨h1, h2⟩ := ho
        subst h1 h2
        rfl
      · cases ho
    | .str none :: _, ho => simp [convOut] at ho
    | [], ho => simp [convOut] at ho
    | .int _ :: _, ho => simp [convOut] at ho
  | _ =>
    match vl, ho with
    | .int v :: vl, ho =>
      simp only [convOut, Option.some.injEq, Prod.mk.injEq] at ho
      refine hmain trivial ?_ ⟨v, vl, rfl⟩
      intro v' vl1 e
      cases e
      exact ⟨ho.1.symm, ho.2.symm⟩
    | [], ho => simp [convOut] at ho
    | .str _ :: _, ho => simp [convOut] at ho

theorem doprint_conv (k : Sink) (fuel : Nat) (st : St) (fs : List Flag) (w : Width) (p : Prec) (l : Len) (kc : Conv)
    (rest : Str) (vl vl' : List Arg) (s : Str) (hi : (Item.conv fs w p l kc).ok)
    (ho : (Item.conv fs w p l kc).out vl = some (s, vl'))
    (hfine : ∀ x y v vl', widthOf fs w vl = some x → precOf p x.2.2 = some y → y.2 = .int v :: vl' →
          ¬ (.hash ∈ fs ∧ (kc = .x ∨ kc = .X) ∧ v ≠ 0 ∧ unsignedArg l v = 0)) :
    doprint k (fuel + 1) ((Item.conv fs w p l kc).text ++ rest) vl st = doprint k fuel rest vl' (putAll k s st) := by
  unfold Item.out at ho
  simp only at ho
  cases hw : widthOf fs w vl with
  | none => rw [hw] at ho; cases ho
  | some x =>
  rw [hw] at ho
  simp only [Option.bind_some] at ho
  cases hp : precOf p x.2.2 with
  | none => rw [hp] at ho; cases ho
  | some y =>
  rw [hp] at ho
  simp only [Option.bind_some] at ho
  obtain ⟨left, width, vl1⟩ := x
  obtain ⟨prec, vl2⟩ := y
  simp only at ho hp
  obtain ⟨c1, r1, e1, h1, d1, f1, a1, b1, g1⟩ := parseLen_ok l kc rest
  obtain ⟨c2, r2, e2, ⟨P, h2, hPb, hP⟩, d2, f2, b2, g2⟩ := parsePrec_ok p c1 r1 vl1 vl2 prec d1 f1 a1 b1 g1 hi.2 hp
  obtain ⟨c3, r3, e3, ⟨f, W, h3, hf, hW⟩, f3, g3⟩ := parseWidth_ok fs w c2 r2 vl vl1 left width d2 f2 b2 g2 hi.1 hw
  obtain ⟨c4, r4, e4, g4⟩ := flags_head fs c3 r3 g3
  have et : (Item.conv fs w p l kc).text ++ rest = chr '%' :: c4 :: r4 := by
    rw [← e4, ← e3, ← e2, ← e1]
    simp [Item.text, List.append_assoc]
  have hpf := parseFlags_ok c3 r3 f3 fs {}
  rw [e4] at hpf
  rw [et]
  have := dispatch_ok k fuel st rest vl2 vl' f fs left hf width W hW P prec hP hPb l kc s ho
    (fun v vl' e => hfine _ _ v vl' hw hp e)
  rw [← this]
  unfold doprint
  rw [if_neg (by decide)]
  simp only
  rw [if_neg g4, hpf]
  simp only
  rw [h3]
  simp only
  rw [h2]
  simp only
  rw [h1]
  rfl

theorem doprint_items (k : Sink) : ∀ (is : List Item) (vl : List Arg) (t pre : Str) (fuel : Nat),
    (∀ i ∈ is, i.ok) → fine is vl → text is vl = some t → ((is.map Item.text).flatten).length < fuel →
    doprint k fuel (is.map Item.text).flatten vl (after k pre) =
      some (after k (pre ++ t), if (after k (pre ++ t)).err then -1 else (after k (pre ++ t)).cnt.toInt) := by
  intro is
  induction is with
  | nil =>
    intro vl t pre fuel _ _ ht hfu
    cases ht
    obtain ⟨fuel, rfl⟩ : ∃ n, fuel = n + 1 := ⟨fuel - 1, by omega⟩
    rw [List.append_nil]; rfl
  | cons i is ih =>
    intro vl t pre fuel hok hfine ht hfu
    obtain ⟨fuel, rfl⟩ : ∃ n, fuel = n + 1 := ⟨fuel - 1, by omega⟩
    unfold text at ht
    cases ho : i.out vl with
    | none => rw [ho] at ht; cases ht
    | some x =>
    rw [ho] at ht
    simp only [Option.bind_some] at ht
    obtain ⟨s, vl'⟩ := x
    cases htt : text is vl' with
    | none => rw [htt] at ht; cases ht
    | some t' =>
    rw [htt] at ht
    simp only [Option.map_some, Option.some.injEq] at ht
    subst ht
    have hfine' := hfine.2 s vl' ho
    have hok' : ∀ i ∈ is, i.ok := fun j hj => hok j (List.mem_cons_of_mem _ hj)
    have hi := hok i List.mem_cons_self
    simp only [List.map_cons, List.flatten_cons, List.length_append] at hfu ⊢
    have key : doprint k (fuel + 1) (i.text ++ (is.map Item.text).flatten) vl (after k pre) =
        doprint k fuel (is.map Item.text).flatten vl' (putAll k s (after k pre)) ∧ 0 < i.text.length := by
      cases i with
      | lit c =>
        simp only [Item.out, Option.some.injEq, Prod.mk.injEq] at ho
        refine ⟨?_, by simp [Item.text]⟩
        obtain ⟨h1, h2⟩ := ho
        subst h1 h2
        simp only [Item.text, List.cons_append, List.nil_append]
        conv => lhs; unfold doprint
        rw [if_pos (show c ≠ 37 from hi.1)]
        rfl
      | percent =>
        simp only [Item.out, Option.some.injEq, Prod.mk.injEq] at ho
        refine ⟨?_, by simp [Item.text]⟩
        obtain ⟨h1, h2⟩ := ho
        subst h1 h2
        simp only [Item.text, List.cons_append, List.nil_append]
        conv => lhs; unfold doprint
        rw [if_neg (by decide)]
        simp only
        rw [if_pos (by decide)]
        rfl
      | conv fs w p l kc =>
        exact ⟨doprint_conv k fuel (after k pre) fs w p l kc _ vl vl' s hi ho hfine.1, by simp [Item.text]⟩
    rw [key.1, putAll_after, ih vl' t' (pre ++ s) fuel hok' hfine' htt (by omega), List.append_assoc]

/-- C11, except for the defect `c11_defect` (hypothesis `fine`): for every format made of ordinary characters, `%%`
and conversions `d i u o x X c s` with any flags, width, precision and length modifier, and every matching list of
arguments, printf writes the text the standard prescribes and returns its length (for a string sink as much as
fits; -1 after a write error). -/
theorem c11_printf_partial (k : Sink) (is : List Item) (vl : List Arg) (t : Str)
    (hok : ∀ i ∈ is, i.ok) (hfine : fine is vl) (ht : text is vl = some t) :
    printf k (is.map Item.text).flatten vl = some (result k t) := by
  have h0 : (⟨[], 0, false⟩ : St) = after k [] := by
    unfold after
    cases h : k.cap <;> simp
  unfold printf
  rw [h0, doprint_items k is vl t [] _ hok hfine ht (Nat.lt_succ_self _)]
  simp only [Option.map_some, List.nil_append, Option.some.injEq]
  unfold result after
  cases h : k.cap with
  | none => simp
  | some n =>
    simp only
    split
    · simp
    · simp

/-- the defect: with `#`, the base prefix is decided before the length modifier is applied (doprint.c:486 and 492),
so `printf("%#hhx", 0x100)` prints "0x0" where the standard wants "0" -/
theorem c11_defect : ∃ (is : List Item) (vl : List Arg) (t : Str), (∀ i ∈ is, i.ok) ∧ text is vl = some t ∧
    printf ⟨none, false⟩ (is.map Item.text).flatten vl ≠ some (result ⟨none, false⟩ t) := by
  refine ⟨[.conv [.hash] .none .none .hh .x], [.int 0x100], [chr '0'], ?_, by decide +kernel, by decide +kernel⟩
  intro i hi
  rw [List.mem_singleton] at hi
  subst hi
  exact ⟨trivial, trivial⟩

/-- `printf("%-6d|%#06x|%+.3d|%*s%%\n", -42, 255, 7, 4, "ab")` -/
example : printf ⟨none, false⟩ ("%-6d|%#06x|%+.3d|%*s%%".toList.map chr)
    [.int (-42), .int 255, .int 7, .int 4, .str (some [chr 'a', chr 'b'])] =
    some ("-42   |0x00ff|+007|  ab%".toList.map chr, 24) := by decide +kernel

/-- the hypotheses of `c11_printf_partial` hold for it -/
example : text [.conv [.minus] (.num [6]) .none .none .d, .lit (chr '|'), .conv [.hash, .zero] (.num [6]) .none .none .x, .lit (chr '|'),
      .conv [.plus] .none (.num [3]) .none .d, .lit (chr '|'), .conv [] .star .none .none .s, .percent]
    [.int (-42), .int 255, .int 7, .int 4, .str (some [chr 'a', chr 'b'])] = some ("-42   |0x00ff|+007|  ab%".toList.map chr) := by
  decide +kernel
example : fine [.conv [.hash, .zero] (.num [6]) .none .hh .x] [.int 255] := by
  refine ⟨?_, fun _ _ _ => trivial⟩
  intro x y v vl' h1 h2 h3
  simp only [widthOf, Option.some.injEq] at h1
  subst h1
  simp only [precOf, Option.some.injEq] at h2
  subst h2
  simp only [List.cons.injEq, Arg.int.injEq] at h3
  obtain ⟨h3, -⟩ := h3
  subst h3
  rintro ⟨-, -, -, h⟩
  exact absurd h (by decide)

end Smlr.Printf
