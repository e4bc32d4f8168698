import Verif.Mem.PropsSearch
set_option autoImplicit false
/-
Property C39: `strtok`.
-/
namespace Smlr.Mem
open Spec

theorem skipDelims_eq_strspn (m : Mem) (d ifuel : Nat) : ∀ fuel s,
    skipDelims m d ifuel fuel s = strspnLoop m d ifuel fuel s := by
  intro fuel
  induction fuel with
  | zero => intro s; rfl
  | succ f ih =>
    intro s
    simp only [skipDelims, strspnLoop]
    cases inSet m (m s) ifuel d with
    | none => rfl
    | some b => cases b <;> simp [ih]

theorem strtokField_eq (m : Mem) (ds : List UInt8) (d ifuel : Nat) (hd : CStr m d ds) (hfd : ds.length < ifuel) :
    ∀ (a : List UInt8) (p fuel : Nat), CStr m p a → a.length < fuel →
    strtokField d ifuel fuel p m =
      some (let f := a.takeWhile (fun c => !ds.contains c)
            if f = a then (m, none) else (upd m (p + f.length) 0, some (p + f.length + 1))) := by
  intro a
  induction a with
  | nil =>
    intro p fuel ha hf
    cases fuel with
    | zero => omega
    | succ f => simp only [CStr] at ha; simp [strtokField, ha]
  | cons x t ih =>
    intro p fuel ha hf
    cases fuel with
    | zero => omega
    | succ f =>
      obtain ⟨h1, h2, h3⟩ := ha
      have := ih (p+1) f h3 (by simp only [List.length_cons] at hf; omega)
      simp only [strtokField, h2, inSet_eq m x ds d ifuel hd hfd, this]
      rw [if_neg h1]
      cases hx : ds.contains x with
      | true =>
        have hx' : x ∈ ds := by simpa using hx
        simp [List.takeWhile_cons, hx']
      | false =>
        simp only [List.takeWhile_cons, hx, Bool.not_false, if_true, List.length_cons, List.cons.injEq, true_and]
        split
        · rfl
        · congr 3 <;> omega

/-- splitting off the first field -/
theorem fields_cons_delim (ds : List UInt8) (x : UInt8) (t : List UInt8) (h : ds.contains x = true) :
    fields ds (x :: t) = fields ds t := by
  simp only [fields, List.splitOnP_cons_eq_if_modifyHead, h, if_true]
  simp

theorem splitOnP_append_field (pr : UInt8 → Bool) : ∀ (f rest : List UInt8), (∀ c ∈ f, pr c = false) →
    (f ++ rest).splitOnP pr = (rest.splitOnP pr).modifyHead (f ++ ·) := by
  intro f
  induction f with
  | nil =>
    intro rest _
    rw [List.nil_append]
    cases h : rest.splitOnP pr with
    | nil => rfl
    | cons a b => rfl
  | cons c t ih =>
    intro rest hc
    rw [List.cons_append, List.splitOnP_cons_eq_if_modifyHead, ih rest (fun c h => hc c (by simp [h]))]
    rw [hc c (by simp)]
    cases h : rest.splitOnP pr <;> simp

theorem fields_dropWhile (ds a : List UInt8) :
    fields ds a = fields ds (a.dropWhile (fun c => ds.contains c)) := by
  induction a with
  | nil => rfl
  | cons x t ih =>
    cases hx : ds.contains x with
    | true => rw [fields_cons_delim ds x t hx, ih, List.dropWhile_cons, if_pos hx]
    | false => rw [List.dropWhile_cons, if_neg (by simpa using hx)]

theorem fields_step (ds : List UInt8) (f rest : List UInt8) (hf : f ≠ []) (hnd : ∀ c ∈ f, ds.contains c = false)
    (hr : ∀ x t, rest = x :: t → ds.contains x = true) :
    fields ds (f ++ rest) = f :: fields ds rest.tail := by
  unfold fields
  rw [splitOnP_append_field _ f rest hnd]
  cases rest with
  | nil => simp [hf]
  | cons x t =>
    rw [List.splitOnP_cons_eq_if_modifyHead, hr x t rfl, if_pos rfl]
    have hfe : f.isEmpty = false := by cases f with
      | nil => exact absurd rfl hf
      | cons a b => rfl
    rw [List.modifyHead_cons, List.filter_cons, List.append_nil, hfe]
    rfl

theorem takeWhile_split (p : UInt8 → Bool) (l : List UInt8) :
    l = l.takeWhile p ++ l.dropWhile p := (List.takeWhile_append_dropWhile).symm

theorem dropWhile_head (p : UInt8 → Bool) (l : List UInt8) (x t) (h : l.dropWhile p = x :: t) : p x = false := by
  induction l with
  | nil => simp at h
  | cons y s ih =>
    rw [List.dropWhile_cons] at h
    split at h
    · exact ih h
    · rename_i hy; simp only [List.cons.injEq] at h; rw [← h.1]; simpa using hy

theorem cstr_prefix {m : Mem} : ∀ (a b : List UInt8) (p : Nat), CStr m p (a ++ b) →
    ∀ m' : Mem, (∀ i, i < a.length → m' (p+i) = m (p+i)) → m' (p + a.length) = 0 → CStr m' p a := by
  intro a
  induction a with
  | nil => intro b p _ m' _ h; simpa [CStr] using h
  | cons c t ih =>
    intro b p h m' hm hz
    refine ⟨h.1, ?_, ih b (p+1) h.2.2 m' ?_ ?_⟩
    · have := hm 0 (by simp); simp only [Nat.add_zero] at this; rw [this]; exact h.2.1
    · intro i hi
      have := hm (i+1) (by simp only [List.length_cons]; omega)
      rwa [show p + (i+1) = p+1+i by omega] at this
    · rwa [List.length_cons, show p + (t.length+1) = p+1+t.length by omega] at hz

/-- One call of `strtok` on the text `a` (either passed or remembered): with no field left
it returns null; otherwise it returns the first field, NUL-terminated in place, and remembers
a position whose text has exactly the remaining fields. -/
theorem c39_strtok_call (m : Mem) (ds a : List UInt8) (d p fuel : Nat) (last s : Option Nat)
    (hs : s = some p ∨ (s = none ∧ last = some p))
    (hd : CStr m d ds) (ha : CStr m p a) (hfd : ds.length < fuel) (hfa : a.length < fuel)
    (hdisj : d + ds.length < p ∨ p + a.length < d) :
    ∃ r, strtok m fuel last s d = some r ∧
      (∀ x, ¬ (p ≤ x ∧ x < p + a.length) → r.mem x = m x) ∧
      match fields ds a with
      | [] => r.ret = none ∧ r.last = none ∧ r.mem = m
      | f :: fs => ∃ q, r.ret = some q ∧ p ≤ q ∧ q + f.length ≤ p + a.length ∧ CStr r.mem q f ∧
          ((fs = [] ∧ r.last = none) ∨
           ∃ b, r.last = some (q + f.length + 1) ∧ q + f.length + 1 + b.length = p + a.length ∧
             CStr r.mem (q + f.length + 1) b ∧ fields ds b = fs) := by
  have hsel : strtok m fuel last s d = strtok m fuel (some p) none d := by
    rcases hs with h | ⟨h, h'⟩
    · subst h; rfl
    · subst h; subst h'; rfl
  rw [hsel]
  unfold strtok
  simp only
  rw [skipDelims_eq_strspn, strspnLoop_eq m ds d fuel hd hfd a p fuel ha hfa]
  simp only
  generalize hsk : a.takeWhile (fun c => ds.contains c) = sk
  have hsplit := takeWhile_split (fun c => ds.contains c) a
  rw [hsk] at hsplit
  generalize hrest : a.dropWhile (fun c => ds.contains c) = rest at hsplit
  have hrestC : CStr m (p + sk.length) rest := cstr_drop sk rest p (hsplit ▸ ha)
  have hlen : a.length = sk.length + rest.length := by rw [hsplit, List.length_append]
  rw [fields_dropWhile, hrest]
  cases hrc : rest with
  | nil =>
    subst hrc
    simp only [CStr] at hrestC
    rw [if_pos hrestC]
    exact ⟨_, rfl, fun x _ => rfl, by simp [fields]⟩
  | cons x t =>
    subst hrc
    obtain ⟨h1, h2, h3⟩ := hrestC
    have hxd : ds.contains x = false := dropWhile_head (fun c => ds.contains c) a x t hrest
    rw [if_neg (by rw [h2]; exact h1)]
    simp only [List.length_cons] at hlen
    rw [strtokField_eq m ds d fuel hd hfd t (p + sk.length + 1) fuel h3 (by omega)]
    simp only
    generalize hg : t.takeWhile (fun c => !ds.contains c) = g
    have hsplit2 := takeWhile_split (fun c => !ds.contains c) t
    rw [hg] at hsplit2
    generalize hrest2 : t.dropWhile (fun c => !ds.contains c) = rest2 at hsplit2
    have hstep : fields ds (x :: t) = (x :: g) :: fields ds rest2.tail := by
      have := fields_step ds (x :: g) rest2 (by simp) ?_ ?_
      · rwa [List.cons_append, ← hsplit2] at this
      · intro c hc
        simp only [List.mem_cons] at hc
        rcases hc with hc | hc
        · subst hc; exact hxd
        · rw [← hg] at hc
          have := List.all_eq_true.1 (List.all_takeWhile (p := fun c => !ds.contains c) (l := t)) c hc
          simpa using this
      · intro y u hy
        have := dropWhile_head (fun c => !ds.contains c) t y u (by rw [hrest2, hy])
        simpa using this
    rw [hstep]
    have htl : t.length = g.length + rest2.length := by
      conv => lhs; rw [hsplit2]
      rw [List.length_append]
    by_cases hgt : g = t
    · rw [if_pos hgt]
      have hr2 : rest2 = [] := by
        have : rest2.length = 0 := by rw [hgt] at htl; omega
        exact List.eq_nil_of_length_eq_zero this
      refine ⟨_, rfl, fun y _ => rfl, p + sk.length, rfl, by omega, ?_, ?_, ?_⟩
      · simp only [List.length_cons, hgt]; omega
      · simp only; rw [hgt]; exact ⟨h1, h2, h3⟩
      · left; simp [hr2, fields]
    · rw [if_neg hgt]
      have hne : rest2 ≠ [] := by
        intro h; rw [h, List.append_nil] at hsplit2; exact hgt hsplit2.symm
      obtain ⟨y, u, hyu⟩ := List.exists_cons_of_ne_nil hne
      subst hyu
      simp only [List.length_cons] at htl
      have htC : CStr m (p + sk.length + 1) (g ++ y :: u) := hsplit2 ▸ h3
      refine ⟨_, rfl, ?_, p + sk.length, rfl, by omega, ?_, ?_, ?_⟩
      · intro z hz
        exact upd_ne _ _ (by omega)
      · simp only [List.length_cons]; omega
      · refine ⟨h1, ?_, ?_⟩
        · simp only; rw [upd_ne _ _ (by omega)]; exact h2
        · refine cstr_prefix g (y :: u) (p + sk.length + 1) htC _ (fun i hi => ?_) ?_
          · exact upd_ne _ _ (by omega)
          · exact upd_same _ _ _
      · right
        refine ⟨u, by simp only [List.length_cons]; congr 1; omega, by simp only [List.length_cons]; omega, ?_, by simp⟩
        have := (cstr_drop g (y :: u) _ htC).2.2
        refine cstr_congr u _ (fun i _ => ?_) (by
          simp only [List.length_cons]
          rw [show p + sk.length + (g.length + 1) + 1 = p + sk.length + 1 + g.length + 1 by omega]; exact this)
        exact upd_ne _ _ (by simp only [List.length_cons]; omega)

/-- `n` successive calls `strtok(NULL, delims)`: returned pointers and final memory. -/
def tokSeq (fuel d : Nat) : Nat → Mem → Option Nat → Option (List (Option Nat) × Mem)
  | 0, m, _ => some ([], m)
  | n+1, m, last =>
    match strtok m fuel last none d with
    | none => none
    | some r => match tokSeq fuel d n r.mem r.last with
      | none => none
      | some (rs, m') => some (r.ret :: rs, m')

theorem tokSeq_none (fuel d : Nat) : ∀ n m, tokSeq fuel d n m none = some (List.replicate n none, m) := by
  intro n
  induction n with
  | zero => intro m; rfl
  | succ n ih => intro m; simp [tokSeq, strtok, ih, List.replicate_succ]

theorem tokSeq_eq (ds : List UInt8) (d fuel : Nat) (hfd : ds.length < fuel) :
    ∀ (n : Nat) (m : Mem) (a : List UInt8) (p : Nat), CStr m d ds → CStr m p a → a.length < fuel →
      (d + ds.length < p ∨ p + a.length < d) →
    ∃ rs m', tokSeq fuel d n m (some p) = some (rs, m') ∧ rs.length = n ∧
      (∀ x, ¬ (p ≤ x ∧ x < p + a.length) → m' x = m x) ∧
      ∀ j, j < n → match (fields ds a)[j]? with
        | some f => ∃ q, rs[j]? = some (some q) ∧ p ≤ q ∧ q + f.length ≤ p + a.length ∧ CStr m' q f
        | none => rs[j]? = some none := by
  intro n
  induction n with
  | zero => intro m a p _ _ _ _; exact ⟨[], m, rfl, rfl, fun _ _ => rfl, by intro j hj; omega⟩
  | succ n ih =>
    intro m a p hd ha hfa hdisj
    obtain ⟨r, hr, hmem, hcase⟩ := c39_strtok_call m ds a d p fuel (some p) none (Or.inr ⟨rfl, rfl⟩) hd ha hfd hfa hdisj
    cases hfs : fields ds a with
    | nil =>
      rw [hfs] at hcase
      obtain ⟨h1, h2, h3⟩ := hcase
      refine ⟨none :: List.replicate n none, m, ?_, by simp, fun _ _ => rfl, ?_⟩
      · simp only [tokSeq, hr, h2, tokSeq_none, h1, h3]
      · intro j hj
        simp only [List.getElem?_nil]
        cases j with
        | zero => simp
        | succ j => simp only [List.getElem?_cons_succ]; rw [List.getElem?_replicate]; simp; omega
    | cons f fs =>
      rw [hfs] at hcase
      obtain ⟨q, hq, hpq, hqf, hqC, hlast⟩ := hcase
      rcases hlast with ⟨hfs0, hl⟩ | ⟨b, hl, hb1, hb2, hb3⟩
      · refine ⟨some q :: List.replicate n none, r.mem, ?_, by simp, hmem, ?_⟩
        · simp only [tokSeq, hr, hl, tokSeq_none, hq]
        · intro j hj
          subst hfs0
          cases j with
          | zero => simp only [List.getElem?_cons_zero]; exact ⟨q, rfl, hpq, hqf, hqC⟩
          | succ j =>
            simp only [List.getElem?_cons_succ, List.getElem?_nil]
            rw [List.getElem?_replicate]; simp; omega
      · have hd' : CStr r.mem d ds := by
          refine cstr_congr ds d (fun i hi => hmem _ ?_) hd
          omega
        obtain ⟨rs, m', e, hlenr, hm', hall⟩ := ih r.mem b (q + f.length + 1) hd' hb2 (by omega) (by omega)
        refine ⟨some q :: rs, m', ?_, by simp [hlenr], ?_, ?_⟩
        · simp only [tokSeq, hr, hl, e, hq]
        · intro x hx
          rw [hm' x (by omega), hmem x hx]
        · intro j hj
          cases j with
          | zero =>
            simp only [List.getElem?_cons_zero]
            refine ⟨q, rfl, hpq, hqf, ?_⟩
            refine cstr_congr f q (fun i hi => hm' _ (by omega)) hqC
          | succ j =>
            have := hall j (by omega)
            rw [hb3] at this
            simp only [List.getElem?_cons_succ]
            cases hfj : fs[j]? with
            | none => rw [hfj] at this; exact this
            | some g =>
              rw [hfj] at this
              obtain ⟨q', e1, e2, e3, e4⟩ := this
              exact ⟨q', e1, by omega, by omega, e4⟩

/-- C39: a first call `strtok(p, delims)` followed by `n` calls `strtok(NULL, delims)` returns
in order pointers to exactly the maximal delimiter-free runs (all of them still intact at the
end), then null pointers; no byte outside the text changes. -/
theorem c39_strtok (m : Mem) (ds a : List UInt8) (d p fuel n : Nat) (last : Option Nat)
    (hd : CStr m d ds) (ha : CStr m p a) (hfd : ds.length < fuel) (hfa : a.length < fuel)
    (hdisj : d + ds.length < p ∨ p + a.length < d) :
    ∃ r rs m', strtok m fuel last (some p) d = some r ∧ tokSeq fuel d n r.mem r.last = some (rs, m') ∧
      (∀ x, ¬ (p ≤ x ∧ x < p + a.length) → m' x = m x) ∧
      ∀ j, j < n + 1 → match (fields ds a)[j]? with
        | some f => ∃ q, (r.ret :: rs)[j]? = some (some q) ∧ CStr m' q f
        | none => (r.ret :: rs)[j]? = some none := by
  obtain ⟨rs, m', e, _, hm, hall⟩ := tokSeq_eq ds d fuel hfd (n+1) m a p hd ha hfa hdisj
  have heq : strtok m fuel last (some p) d = strtok m fuel (some p) none d := rfl
  simp only [tokSeq] at e
  cases hr : strtok m fuel (some p) none d with
  | none => rw [hr] at e; simp at e
  | some r =>
    rw [hr] at e
    simp only at e
    cases ht : tokSeq fuel d n r.mem r.last with
    | none => rw [ht] at e; simp at e
    | some x =>
      obtain ⟨rs', m''⟩ := x
      rw [ht] at e
      simp only [Option.some.injEq, Prod.mk.injEq] at e
      obtain ⟨e1, e2⟩ := e
      subst e1 e2
      refine ⟨r, rs', m'', heq.trans hr, ht, hm, ?_⟩
      intro j hj
      have := hall j hj
      cases hfj : (fields ds a)[j]? with
      | none => rw [hfj] at this; exact this
      | some g =>
        rw [hfj] at this
        obtain ⟨q', e1, _, _, e4⟩ := this
        exact ⟨q', e1, e4⟩

/-- ",a,,bc," split at "," has the two fields "a" and "bc" -/
example : fields [0x2C] [0x2C,0x61,0x2C,0x2C,0x62,0x63,0x2C] = [[0x61],[0x62,0x63]] := by decide +kernel

/-- memory holding "," at 10 and ",a,,bc," at 20: the calls return 21, 24, NULL, NULL -/
def tokMem : Mem := fun a =>
  if a = 10 then 0x2C else if a < 20 then 0 else ([0x2C,0x61,0x2C,0x2C,0x62,0x63,0x2C][a - 20]?.getD 0)

example : (strtok tokMem 20 none (some 20) 10).map (fun r => (r.ret, (tokSeq 20 10 3 r.mem r.last).map (·.1))) =
    some (some 21, some [some 24, none, none]) := by decide +kernel

end Smlr.Mem
