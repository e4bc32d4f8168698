import Verif.Tmpnam.Model
import Verif.Tmpnam.Spec
set_option autoImplicit false
/-! C72: names of temporary files. -/
namespace Smlr.Tmpnam
open Spec Smlr.Exit.Spec

/-- the state when the directory `d` is known: some name in it has been made -/
structure Ready (unix : Bool) (L : Nat) (d : Str) (s : St) : Prop where
  num : s.num < tmpMax
  plen : s.plen = d.length
  len : d.length + 13 ≤ L
  name : ∃ n, IsName unix d n s.name

theorem val_append (a : Str) (c : UInt8) : val (a ++ [c]) = val a * 10 + (c.toNat - 0x30) := by
  unfold val; rw [List.foldl_append]; rfl

theorem digits_ok (j : Nat) : ∀ (a x c : Str) (n : Nat), x.length = j → n < 10 ^ j →
    ∃ ds, digits j (a ++ x ++ c) (a.length + j) n = some (a ++ ds ++ c) ∧ ds.length = j ∧
      (∀ e ∈ ds, 0x30 ≤ e.toNat ∧ e.toNat ≤ 0x39) ∧ val ds = n := by
  induction j with
  | zero =>
    intro a x c n hx hn
    have : x = [] := by simpa using hx
    subst this
    exact ⟨[], rfl, rfl, by simp, by simp at hn; simp [val, hn]⟩
  | succ j ih =>
    intro a x c n hx hn
    obtain ⟨x', y, rfl⟩ : ∃ x' y, x = x' ++ [y] := by
      refine ⟨x.dropLast, x.getLast (by intro h; simp [h] at hx), ?_⟩
      exact (List.dropLast_concat_getLast _).symm
    have hx' : x'.length = j := by simpa using hx
    have hd : (UInt8.ofNat (0x30 + n % 10)).toNat = 0x30 + n % 10 := by rw [UInt8.toNat_ofNat']; omega
    obtain ⟨ds, h1, h2, h3, h4⟩ := ih a x' (UInt8.ofNat (0x30 + n % 10) :: c) (n / 10) hx' (by rw [Nat.pow_succ] at hn; omega)
    refine ⟨ds ++ [UInt8.ofNat (0x30 + n % 10)], ?_, by simp [h2], ?_, ?_⟩
    · rw [digits, if_neg (by simp; omega)]
      have e : (a ++ (x' ++ [y]) ++ c).set (a.length + (j + 1) - 1) (UInt8.ofNat (0x30 + n % 10)) =
          a ++ x' ++ (UInt8.ofNat (0x30 + n % 10) :: c) := by
        rw [show a ++ (x' ++ [y]) ++ c = (a ++ x') ++ (y :: c) by simp, show a.length + (j + 1) - 1 = (a ++ x').length by simp [hx'],
          List.set_append_right _ _ (Nat.le_refl _)]
        simp
      rw [e, show a.length + (j + 1) - 1 = a.length + j by omega, h1]
      simp
    · intro e he
      rcases List.mem_append.1 he with z | z
      · exact h3 e z
      · simp only [List.mem_singleton] at z; subst z; rw [hd]; omega
    · rw [val_append, h4, hd]; omega

/-- a name is written over another one -/
theorem digits_name {unix : Bool} {d : Str} {k : Nat} {buf : Str} (h : IsName unix d k buf) (n : Nat) (hn : n < tmpMax) :
    ∃ b, digits 5 buf (d.length + 8) n = some b ∧ IsName unix d n b := by
  obtain ⟨ds, ⟨h1, -, -⟩, rfl⟩ := h
  obtain ⟨es, g1, g2, g3, g4⟩ := digits_ok 5 (d ++ (if unix then [0x74, 0x6D, 0x70] else [0x54, 0x4D, 0x50])) ds
    (if unix then [0x2E, 0x74, 0x6D, 0x70] else [0x2E, 0x24, 0x24, 0x24]) n h1 (by unfold tmpMax at hn; omega)
  refine ⟨_, ?_, es, ⟨g2, g3, g4⟩, rfl⟩
  rw [← g1]
  congr 1
  cases unix <;> simp

theorem next_lt (n : Nat) : next n < tmpMax := by unfold next tmpMax; split <;> omega

theorem next_mod (n : Nat) (h : n < tmpMax) : next n = (n + 1) % tmpMax := by unfold next tmpMax at *; split <;> omega

/-- names are unique for their number -/
theorem name_inj {unix : Bool} {d : Str} {n : Nat} {a b : Str} (h : IsName unix d n a) (g : IsName unix d n b) : a = b := by
  have last : ∀ (k : Nat) (x : Str), x.length = k + 1 → ∃ x' e, x = x' ++ [e] := fun k x hx =>
    ⟨x.dropLast, x.getLast (by intro h; simp [h] at hx), (List.dropLast_concat_getLast _).symm⟩
  have key : ∀ (k : Nat) (x y : Str), x.length = k → y.length = k → (∀ c ∈ x, 0x30 ≤ c.toNat ∧ c.toNat ≤ 0x39) →
      (∀ c ∈ y, 0x30 ≤ c.toNat ∧ c.toNat ≤ 0x39) → val x = val y → x = y := by
    intro k
    induction k with
    | zero => intro x y hx hy _ _ _; rw [List.length_eq_zero_iff.1 hx, List.length_eq_zero_iff.1 hy]
    | succ k ih =>
      intro x y lx ly hx hy hv
      obtain ⟨x', c, rfl⟩ := last k x lx
      obtain ⟨y', e, rfl⟩ := last k y ly
      rw [val_append, val_append] at hv
      have := hx c (by simp)
      have := hy e (by simp)
      have hc : c = e := by apply UInt8.toNat_inj.1; omega
      rw [hc, ih x' y' (by simpa using lx) (by simpa using ly) (fun z hz => hx z (by simp [hz])) (fun z hz => hy z (by simp [hz])) (by omega)]
  obtain ⟨x, ⟨h1, h2, h3⟩, rfl⟩ := h
  obtain ⟨y, ⟨g1, g2, g3⟩, rfl⟩ := g
  rw [key 5 x y h1 g1 h2 g2 (h3.trans g3.symm)]

theorem name_num {unix : Bool} {d : Str} {n k : Nat} {a : Str} (h : IsName unix d n a) (g : IsName unix d k a) : n = k := by
  obtain ⟨x, ⟨h1, h2, h3⟩, e⟩ := h
  obtain ⟨y, ⟨g1, g2, g3⟩, e'⟩ := g
  rw [e] at e'
  have hxy : x = y := List.append_cancel_left (List.append_inj_left' e' rfl)
  rw [← h3, ← g3, hxy]

/-- what the loop does: `i` names are there, and the next one is the result, an error, or one too many -/
theorem loop_ok {unix : Bool} {d : Str} (fs : Nat → Str → Ans) (k : Nat) : ∀ (t num : Nat) (buf : Str), num < tmpMax →
    (∃ n, IsName unix d n buf) → ∃ i num' b ok, loop fs d.length k t num buf = some (num', b, ok) ∧ i ≤ k ∧ num' < tmpMax ∧ (∃ n, IsName unix d n b) ∧
      (∀ j, j < i → ∀ x, IsName unix d ((num + j) % tmpMax) x → fs (t + j) x = .present) ∧
      ((ok = true ∧ i < k ∧ IsName unix d ((num + i) % tmpMax) b ∧ fs (t + i) b = .absent ∧ num' = (num + i + 1) % tmpMax) ∨
       (ok = false ∧ i < k ∧ IsName unix d ((num + i) % tmpMax) b ∧ fs (t + i) b = .error ∧ num' = (num + i + 1) % tmpMax) ∨
       (ok = false ∧ i = k ∧ num' = (num + i) % tmpMax)) := by
  induction k with
  | zero => intro t num buf hn hb; exact ⟨0, num, buf, false, rfl, by omega, hn, hb, by omega, Or.inr (Or.inr ⟨rfl, rfl, by rw [Nat.add_zero, Nat.mod_eq_of_lt hn]⟩)⟩
  | succ k ih =>
    intro t num buf hn ⟨n, hb⟩
    obtain ⟨b, h1, h2⟩ := digits_name hb num hn
    have h0 : IsName unix d ((num + 0) % tmpMax) b := by rw [Nat.add_zero, Nat.mod_eq_of_lt hn]; exact h2
    rw [loop, h1]
    simp only
    cases ha : fs t b with
    | absent => exact ⟨0, _, b, true, rfl, by omega, next_lt _, ⟨_, h2⟩, by omega, Or.inl ⟨rfl, by omega, h0, ha, next_mod num hn⟩⟩
    | error => exact ⟨0, _, b, false, rfl, by omega, next_lt _, ⟨_, h2⟩, by omega, Or.inr (Or.inl ⟨rfl, by omega, h0, ha, next_mod num hn⟩)⟩
    | present =>
      obtain ⟨i, num', b', ok, g1, g2, g3, g4, g5, g6⟩ := ih (t + 1) (next num) b (next_lt _) ⟨_, h2⟩
      have e : ∀ j, (next num + j) % tmpMax = (num + (j + 1)) % tmpMax := by
        intro j; rw [next_mod num hn, Nat.mod_add_mod]; congr 1; omega
      have e1 : (next num + i + 1) % tmpMax = (num + (i + 1) + 1) % tmpMax := by have := e (i + 1); simpa [Nat.add_assoc] using this
      refine ⟨i + 1, num', b', ok, g1, by omega, g3, g4, ?_, ?_⟩
      · intro j hj x hx
        cases j with
        | zero => rw [name_inj hx h0]; exact ha
        | succ j => rw [← e] at hx; have := g5 j (by omega) x hx; rwa [show t + (j + 1) = t + 1 + j by omega]
      · rw [e, e1, show t + 1 + i = t + (i + 1) by omega] at g6
        rcases g6 with ⟨a1, a2, a3⟩ | ⟨a1, a2, a3⟩ | ⟨a1, a2, a3⟩
        · exact Or.inl ⟨a1, by omega, a3⟩
        · exact Or.inr (Or.inl ⟨a1, by omega, a3⟩)
        · exact Or.inr (Or.inr ⟨a1, by omega, a3⟩)

/-- A name that is returned is one in the directory, fits `L_tmpnam`, and there was no such file when the system was asked.  The
names are tried in the order of their numbers, and the next call goes on with the number after it. -/
theorem c72_name (unix : Bool) (L : Nat) (d : Str) (s : St) (h : Ready unix L d s) (fs : Nat → Str → Ans) (own : Bool) (k : Nat) :
    ∃ s' r, tmpnam fs own k s = some (s', r) ∧ Ready unix L d s' ∧ ∀ x, r = some x →
      ∃ i, i < k ∧ IsName unix d ((s.num + i) % 10000) x ∧ x.length + 1 ≤ L ∧ fs i x = .absent ∧ s'.num = (s.num + i + 1) % 10000 ∧
        ∀ j, j < i → ∀ y, IsName unix d ((s.num + j) % 10000) y → fs j y = .present := by
  obtain ⟨i, num', b, ok, h1, h2, h3, h4, h5, h6⟩ := loop_ok (unix := unix) (d := d) fs k 0 s.num s.name h.num h.name
  refine ⟨{ s with num := num', name := if own then s.name else b }, if ok then some b else none, by rw [tmpnam, h.plen, h1], ⟨h3, h.plen, h.len, ?_⟩, ?_⟩
  · cases own
    · exact h4
    · exact h.name
  · intro x hx
    rcases h6 with ⟨rfl, a2, a3, a4, a5⟩ | ⟨rfl, -⟩ | ⟨rfl, -⟩
    · cases hx
      refine ⟨i, a2, a3, ?_, by simpa using a4, a5, fun j hj y hy => by simpa using h5 j hj y hy⟩
      obtain ⟨ds, ⟨g1, -, -⟩, rfl⟩ := a3
      have := h.len
      cases unix <;> simp [g1] <;> omega
    · simp at hx
    · simp at hx

/-- `tmpnam` (10000 tries) gives NULL only if all names were there or the system reported another error -/
theorem c72_null (unix : Bool) (L : Nat) (d : Str) (s s' : St) (h : Ready unix L d s) (fs : Nat → Str → Ans) (own : Bool)
    (hr : tmpnam fs own 10000 s = some (s', none)) :
    (∃ i x, i < 10000 ∧ fs i x = .error) ∨ ∀ n, n < 10000 → ∀ x, IsName unix d n x → ∃ i, i < 10000 ∧ fs i x = .present := by
  obtain ⟨i, num', b, ok, h1, h2, h3, h4, h5, h6⟩ := loop_ok (unix := unix) (d := d) fs 10000 0 s.num s.name h.num h.name
  rw [tmpnam, h.plen, h1] at hr
  rcases h6 with ⟨rfl, -⟩ | ⟨-, a2, -, a4, -⟩ | ⟨-, a2, -⟩
  · simp at hr
  · exact Or.inl ⟨i, b, a2, by simpa using a4⟩
  · refine Or.inr fun n hn x hx => ?_
    have hs := h.num
    unfold tmpMax at *
    refine ⟨(n + 10000 - s.num) % 10000, Nat.mod_lt _ (by omega), ?_⟩
    have := h5 ((n + 10000 - s.num) % 10000) (by omega) x (by rw [show (s.num + (n + 10000 - s.num) % 10000) % 10000 = n by omega]; exact hx)
    simpa using this

/-- `n` calls when there are no such files, and the names they give (none: NULL or an access outside) -/
def calls : Nat → St → Option (List Str)
  | 0, _ => some []
  | n + 1, s =>
    match tmpnam (fun _ _ => .absent) true tmpMax s with
    | some (s, some x) => (calls n s).map (x :: ·)
    | _ => none

theorem calls_ok (unix : Bool) (L : Nat) (d : Str) (n : Nat) : ∀ s : St, Ready unix L d s →
    ∃ xs, calls n s = some xs ∧ xs.length = n ∧ ∀ k (hk : k < xs.length), IsName unix d ((s.num + k) % 10000) xs[k] := by
  induction n with
  | zero => intro s _; exact ⟨[], rfl, rfl, by simp⟩
  | succ n ih =>
    intro s h
    obtain ⟨s', r, h1, h2, h3⟩ := c72_name unix L d s h (fun _ _ => .absent) true tmpMax
    obtain ⟨x, rfl⟩ : ∃ x, r = some x := by
      cases r with
      | some x => exact ⟨x, rfl⟩
      | none =>
        exfalso
        obtain ⟨b, d1, d2⟩ := digits_name h.name.choose_spec s.num h.num
        rw [tmpnam, h.plen, show tmpMax = 9999 + 1 from rfl, loop, d1] at h1
        simp at h1
    obtain ⟨i, -, i2, -, -, i5, i6⟩ := h3 x rfl
    have hi : i = 0 := by
      cases i with
      | zero => rfl
      | succ i =>
        obtain ⟨b, -, d2⟩ := digits_name h.name.choose_spec s.num h.num
        have := i6 0 (by omega) b (by rw [Nat.add_zero, show s.num % 10000 = s.num from Nat.mod_eq_of_lt h.num]; exact d2)
        cases this
    subst hi
    obtain ⟨xs, g1, g2, g3⟩ := ih s' h2
    refine ⟨x :: xs, by rw [calls, h1]; simp only [g1, Option.map_some], by simp [g2], fun k hk => ?_⟩
    cases k with
    | zero => exact i2
    | succ k =>
      have := g3 k (by simpa using hk)
      rw [i5] at this
      rw [List.getElem_cons_succ, show (s.num + (k + 1)) % 10000 = ((s.num + 0 + 1) % 10000 + k) % 10000 by omega]
      exact this

/-- up to 10000 calls give different names, whether or not the files are made -/
theorem c72_differ (unix : Bool) (L : Nat) (d : Str) (s : St) (h : Ready unix L d s) (n : Nat) (hn : n ≤ 10000) :
    ∃ xs, calls n s = some xs ∧ xs.length = n ∧ ∀ i j (hi : i < xs.length) (hj : j < xs.length), i ≠ j → xs[i] ≠ xs[j] := by
  obtain ⟨xs, h1, h2, h3⟩ := calls_ok unix L d n s h
  refine ⟨xs, h1, h2, fun i j hi hj hij e => ?_⟩
  have a := h3 i hi
  rw [e] at a
  have := name_num a (h3 j hj)
  omega

theorem slash_iff (c : UInt8) : slash c = true ↔ IsSlash c := by simp [slash, IsSlash]

/-- a path that may be made longer by a slash -/
theorem try_ok (L : Nat) (hL : 20 ≤ L) (dir : Str → Bool) (path : Str) (hp : path ≠ []) (s : St) (h0 : s.name = []) :
    ∃ s', tryPath L dir path s = some s' ∧ s'.num = s.num ∧ (s'.name = [] ∨
      (s'.plen = s'.name.length ∧ s'.name.length + 13 ≤ L ∧ (∃ c, s'.name.getLast? = some c ∧ slash c = true) ∧
        (dir s'.name = true ∨ dir s'.name.dropLast = true))) := by
  unfold tryPath
  by_cases h1 : path.length ≥ L - (1 + 8 + 1 + 3)
  · rw [if_pos h1]; exact ⟨_, rfl, rfl, Or.inl h0⟩
  · rw [if_neg h1]
    have hpos : 0 < path.length := List.length_pos_iff.2 hp
    have f1 : fit L path = some path := by unfold fit; rw [if_pos (by omega)]
    rw [f1]
    simp only
    have hlast : path[path.length - 1]? = some (path.getLast hp) := by
      rw [List.getElem?_eq_getElem (by omega), List.getLast_eq_getElem]
    unfold adjust
    simp only [hlast]
    by_cases h2 : slash (path.getLast hp) = true
    · rw [if_pos h2]
      by_cases h3 : path.length > 1 ∧ path[path.length - 2]? ≠ some 0x3A
      · rw [if_pos h3]
        simp only
        by_cases h4 : dir (path.take (path.length - 1)) = true
        · have hne : path.getLast hp ≠ 0 := by intro h; rw [h] at h2; simp [slash] at h2
          rw [if_neg (by simpa using h4), if_pos hne]
          have f2 : fit L (path.take (path.length - 1) ++ [path.getLast hp]) = some (path.take (path.length - 1) ++ [path.getLast hp]) := by
            unfold fit; rw [if_pos (by simp; omega)]
          rw [f2]
          refine ⟨_, rfl, rfl, Or.inr ⟨?_, ?_, ⟨path.getLast hp, by rw [List.getLast?_append]; rfl, h2⟩, Or.inr ?_⟩⟩
          · simp; omega
          · simp; omega
          · rw [List.dropLast_concat]; exact h4
        · rw [if_pos h4]; exact ⟨_, rfl, rfl, Or.inl rfl⟩
      · rw [if_neg h3]
        simp only
        by_cases h4 : dir path = true
        · rw [if_neg (by simpa using h4), if_neg (by simp)]
          exact ⟨_, rfl, rfl, Or.inr ⟨rfl, by simp only; omega, ⟨_, List.getLast?_eq_some_getLast hp, h2⟩, Or.inl h4⟩⟩
        · rw [if_pos h4]; exact ⟨_, rfl, rfl, Or.inl rfl⟩
    · rw [if_neg h2]
      by_cases h3 : path.getLast hp = 0x3A
      · rw [if_pos h3]
        have f2 : fit L (path ++ [0x5C]) = some (path ++ [0x5C]) := by unfold fit; rw [if_pos (by simp; omega)]
        rw [f2]
        simp only [Option.map_some]
        by_cases h4 : dir (path ++ [0x5C]) = true
        · rw [if_neg (by simpa using h4), if_neg (by simp)]
          exact ⟨_, rfl, rfl, Or.inr ⟨by simp, by simp; omega, ⟨0x5C, by simp, by decide⟩, Or.inl h4⟩⟩
        · rw [if_pos h4]; exact ⟨_, rfl, rfl, Or.inl rfl⟩
      · rw [if_neg h3]
        simp only
        by_cases h4 : dir path = true
        · rw [if_neg (by simpa using h4), if_pos (by decide)]
          have f2 : fit L (path ++ [0x5C]) = some (path ++ [0x5C]) := by unfold fit; rw [if_pos (by simp; omega)]
          rw [f2]
          exact ⟨_, rfl, rfl, Or.inr ⟨by simp, by simp; omega, ⟨0x5C, by simp, by decide⟩, Or.inr (by simpa using h4)⟩⟩
        · rw [if_pos h4]; exact ⟨_, rfl, rfl, Or.inl rfl⟩

/-- what the tries leave behind -/
def Found (L : Nat) (dir : Str → Bool) (s : St) : Prop := s.plen = s.name.length ∧ s.name.length + 13 ≤ L ∧
  (∃ c, s.name.getLast? = some c ∧ slash c = true) ∧ (dir s.name = true ∨ dir s.name.dropLast = true)

theorem env_ok (L : Nat) (hL : 20 ≤ L) (dir : Str → Bool) (v : Option Str) (s : St) (h : s.name = []) :
    ∃ s', tryEnv L dir v s = some s' ∧ s'.num = s.num ∧ (s'.name = [] ∨ Found L dir s') := by
  unfold tryEnv
  cases v with
  | none => exact ⟨s, rfl, rfl, Or.inl h⟩
  | some p =>
    simp only
    by_cases hp : p = []
    · rw [if_pos hp]; exact ⟨s, rfl, rfl, Or.inl h⟩
    · rw [if_neg hp]; exact try_ok L hL dir p hp s h

theorem dosFile_name (d : Str) : IsName false d 0 (d ++ dosFile) :=
  ⟨[0x30, 0x30, 0x30, 0x30, 0x30], ⟨rfl, by simp, by decide⟩, by simp [dosFile]⟩

theorem unixFile_name (d : Str) : IsName true d 0 (d ++ unixFile) :=
  ⟨[0x30, 0x30, 0x30, 0x30, 0x30], ⟨rfl, by simp, by decide⟩, by simp [unixFile]⟩

/-- In DOS and Windows, for any values of `TEMP` and `TMP`: the directory ends with a slash and is one that there is, or else
the current one; names in it fit. -/
theorem c72_dos (L : Nat) (hL : 20 ≤ L) (dir : Str → Bool) (temp tmp : Option Str) : ∃ s d, setupDos L dir temp tmp {} = some s ∧
    Ready false L d s ∧ (∃ c, d.getLast? = some c ∧ IsSlash c) ∧
    (dir d = true ∨ dir d.dropLast = true ∨ d = [0x2E, 0x5C]) := by
  simp only [← slash_iff]
  have fin : ∀ s : St, s.num = 0 → (s.name = [] ∨ Found L dir s) →
      ∃ s' d, ((fit L ((if s.name = [] then { s with name := [0x2E, 0x5C], plen := 2 } else s).name ++ dosFile)).map
        fun n => { (if s.name = [] then { s with name := [0x2E, 0x5C], plen := 2 } else s) with name := n }) = some s' ∧ Ready false L d s' ∧
        (∃ c, d.getLast? = some c ∧ slash c = true) ∧ (dir d = true ∨ dir d.dropLast = true ∨ d = [0x2E, 0x5C]) := by
    intro s hn hs
    by_cases h : s.name = []
    · rw [if_pos h]
      refine ⟨_, [0x2E, 0x5C], by unfold fit; rw [if_pos (by simp [dosFile]; omega)]; rfl, ⟨?_, rfl, by simp; omega, 0, dosFile_name _⟩, ⟨0x5C, rfl, by decide⟩, by simp⟩
      show s.num < tmpMax
      rw [hn]; decide
    · rw [if_neg h]
      obtain ⟨f1, f2, f3, f4⟩ := hs.resolve_left h
      refine ⟨{ s with name := s.name ++ dosFile }, s.name, by unfold fit; rw [if_pos (by simp [dosFile]; omega)]; rfl, ⟨?_, f1, f2, 0, dosFile_name _⟩, f3, by
        rcases f4 with x | x <;> simp [x]⟩
      show s.num < tmpMax
      rw [hn]; decide
  unfold setupDos
  rw [if_neg (by simp)]
  obtain ⟨s1, a1, a2, a3⟩ := env_ok L hL dir temp {} rfl
  rw [a1]
  simp only
  have second : ∃ s2, (if s1.name = [] then tryEnv L dir tmp s1 else some s1) = some s2 ∧ s2.num = 0 ∧ (s2.name = [] ∨ Found L dir s2) := by
    by_cases h : s1.name = []
    · rw [if_pos h]; obtain ⟨s2, b1, b2, b3⟩ := env_ok L hL dir tmp s1 h; exact ⟨s2, b1, b2.trans a2, b3⟩
    · rw [if_neg h]; exact ⟨s1, rfl, a2, a3⟩
  obtain ⟨s2, b1, b2, b3⟩ := second
  rw [b1]
  simp only
  have third : ∃ s3, (if s2.name = [] then tryPath L dir [0x43, 0x3A, 0x5C] s2 else some s2) = some s3 ∧ s3.num = 0 ∧ (s3.name = [] ∨ Found L dir s3) := by
    by_cases h : s2.name = []
    · rw [if_pos h]; obtain ⟨s3, c1, c2, c3⟩ := try_ok L hL dir [0x43, 0x3A, 0x5C] (by simp) s2 h; exact ⟨s3, c1, c2.trans b2, c3⟩
    · rw [if_neg h]; exact ⟨s2, rfl, b2, b3⟩
  obtain ⟨s3, c1, c2, c3⟩ := third
  rw [c1]
  exact fin s3 c2 c3

theorem setup_of (L : Nat) (dir : Str → Bool) (p d : Str) (hp : p ≠ []) (hd : d ≠ []) (hl : d.length + 13 ≤ L)
    (ht : tryPath L dir p {} = some { name := d, plen := d.length }) (temp tmp : Option Str)
    (hv : temp = some p ∨ ((temp = none ∨ temp = some []) ∧ tmp = some p)) :
    setupDos L dir temp tmp {} = some { name := d ++ dosFile, plen := d.length } := by
  have he : tryEnv L dir (some p) {} = some { name := d, plen := d.length } := by
    unfold tryEnv; simp only; rw [if_neg hp]; exact ht
  have hf : fit L (d ++ dosFile) = some (d ++ dosFile) := by unfold fit; rw [if_pos (by simp [dosFile]; omega)]
  rcases hv with rfl | ⟨h0, rfl⟩
  · simp [setupDos, he, hd, hf]
  · have h1 : tryEnv L dir temp {} = some {} := by rcases h0 with rfl | rfl <;> rfl
    simp [setupDos, h1, he, hd, hf]

/-- `TEMP`, or `TMP` if `TEMP` is not set, is taken if it names a directory, with or without a slash at its end -/
theorem c72_temp (L : Nat) (dir : Str → Bool) (p : Str) (hp : p ≠ []) (hl : p.length + 13 < L) (hd : dir p = true)
    (h1 : ∀ c, p.getLast? = some c → ¬ IsSlash c ∧ c ≠ 0x3A) (temp tmp : Option Str) (sl : UInt8) (hs : IsSlash sl) :
    ((temp = some p ∨ ((temp = none ∨ temp = some []) ∧ tmp = some p)) →
      setupDos L dir temp tmp {} = some { name := p ++ [0x5C] ++ dosFile, plen := p.length + 1 }) ∧
    ((temp = some (p ++ [sl]) ∨ ((temp = none ∨ temp = some []) ∧ tmp = some (p ++ [sl]))) → p.length + 14 < L →
      setupDos L dir temp tmp {} = some { name := p ++ [sl] ++ dosFile, plen := p.length + 1 }) := by
  simp only [← slash_iff, Bool.not_eq_true] at h1 hs
  have hpos : 0 < p.length := List.length_pos_iff.2 hp
  have hlast : p[p.length - 1]? = some (p.getLast hp) := by
    rw [List.getElem?_eq_getElem (by omega), List.getLast_eq_getElem]
  obtain ⟨g1, g2⟩ := h1 _ (List.getLast?_eq_some_getLast hp)
  refine ⟨fun hv => ?_, fun hv hl2 => ?_⟩
  · have := setup_of L dir p (p ++ [0x5C]) hp (by simp) (by simp; omega) ?_ temp tmp hv
    · simpa using this
    · have f1 : fit L p = some p := by unfold fit; rw [if_pos (by omega)]
      have f2 : fit L (p ++ [0x5C]) = some (p ++ [0x5C]) := by unfold fit; rw [if_pos (by simp; omega)]
      unfold tryPath
      rw [if_neg (by omega), f1]
      simp [adjust, hlast, g1, g2, hd, f2]
  · have := setup_of L dir (p ++ [sl]) (p ++ [sl]) (by simp) (by simp) (by simp; omega) ?_ temp tmp hv
    · simpa using this
    · have f2 : fit L (p ++ [sl]) = some (p ++ [sl]) := by unfold fit; rw [if_pos (by simp; omega)]
      have hne : sl ≠ 0 := by intro h; rw [h] at hs; simp [slash] at hs
      have e1 : (p ++ [sl])[p.length]? = some sl := by simp
      have e2 : (p ++ [sl])[p.length - 1]? ≠ some 0x3A := by
        rw [List.getElem?_append_left (by omega), hlast]; simpa using g2
      unfold tryPath
      rw [if_neg (by simp; omega), f2]
      simp only [adjust, List.length_append, List.length_singleton, Nat.add_sub_cancel, e1, hs, if_true]
      rw [if_pos ⟨by omega, by rw [show p.length + 1 - 2 = p.length - 1 by omega]; exact e2⟩]
      simp [hd, hne, f2]

/-- in Unix `L_tmpnam` is 20 -/
theorem c72_unix (access : Bool) : ∃ s d, setupUnix 20 access {} = some s ∧ Ready true 20 d s ∧
    d = if access then [0x2F, 0x74, 0x6D, 0x70, 0x2F] else [0x2E, 0x2F] := by
  cases access
  · exact ⟨_, [0x2E, 0x2F], rfl, ⟨by decide, rfl, by decide, 0, unixFile_name [0x2E, 0x2F]⟩, rfl⟩
  · exact ⟨_, [0x2F, 0x74, 0x6D, 0x70, 0x2F], rfl, ⟨by decide, rfl, by decide, 0, unixFile_name [0x2F, 0x74, 0x6D, 0x70, 0x2F]⟩, rfl⟩

/-! ### examples -/

/-- `TEMP=D:\T\` where there is `D:\T` -/
example : (setupDos 80 (fun p => p = [0x44, 0x3A, 0x5C, 0x54]) (some [0x44, 0x3A, 0x5C, 0x54, 0x5C]) none {}).map (·.name) =
    some ([0x44, 0x3A, 0x5C, 0x54, 0x5C] ++ dosFile) := by decide +kernel

/-- numbers 9999 and 0 are taken: the third name is `./tmp00001.tmp` -/
example : tmpnam (fun t _ => if t < 2 then .present else .absent) false 10000 ⟨9999, [0x2E, 0x2F] ++ unixFile, 2⟩ =
    some (⟨2, [0x2E, 0x2F, 0x74, 0x6D, 0x70, 0x30, 0x30, 0x30, 0x30, 0x31, 0x2E, 0x74, 0x6D, 0x70], 2⟩,
      some [0x2E, 0x2F, 0x74, 0x6D, 0x70, 0x30, 0x30, 0x30, 0x30, 0x31, 0x2E, 0x74, 0x6D, 0x70]) := by decide +kernel

end Smlr.Tmpnam
