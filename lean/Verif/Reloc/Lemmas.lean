import Verif.Reloc.Spec
set_option autoImplicit false
namespace Smlr.Reloc

theorem le_mod_byte (b : UInt8) : b.toNat < 256 := b.toNat_lt

theorem toNat_ofNat (n : Nat) : (UInt8.ofNat n).toNat = n % 256 := UInt8.toNat_ofNat

/-- a field of known width: the first bytes are replaced according to the specification, the others kept -/
theorem field_spec (r : Rel) (place w : Nat) (hw : width r.type = some w) (buf : Bytes) (hl : w ≤ buf.length) :
    ∃ new, field r place buf = .ok (new ++ buf.drop w) ∧ Fixed r place (buf.take w) new := by
  have e1 : ∀ n : Nat, n <<< 8 = n * 256 := fun n => Nat.shiftLeft_eq ..
  have e2 : ∀ n : Nat, n <<< 16 = n * 65536 := fun n => Nat.shiftLeft_eq ..
  have e3 : ∀ n : Nat, n <<< 24 = n * 16777216 := fun n => Nat.shiftLeft_eq ..
  have f1 : ∀ n : Nat, n >>> 8 = n / 256 := fun n => Nat.shiftRight_eq_div_pow ..
  have f2 : ∀ n : Nat, n >>> 16 = n / 65536 := fun n => Nat.shiftRight_eq_div_pow ..
  have f3 : ∀ n : Nat, n >>> 24 = n / 16777216 := fun n => Nat.shiftRight_eq_div_pow ..
  unfold width at hw
  by_cases h1 : r.type ∈ [1, 2]
  · rw [if_pos h1] at hw
    cases hw
    have h1' : r.type = 1 ∨ r.type = 2 := by simpa using h1
    match buf, hl with
    | b0 :: b1 :: b2 :: b3 :: rest, _ =>
      have g0 := b0.toNat_lt
      have g1 := b1.toNat_lt
      have g2 := b2.toNat_lt
      have g3 := b3.toNat_lt
      simp only [field, if_pos h1', e1, e2, e3, f1, f2, f3]
      refine ⟨[_, _, _, _], rfl, ?_⟩
      constructor
      · rfl
      · intro hn
        have : r.type ≠ 2 := fun h => hn (.inl h)
        simp only [if_neg this, le, toNat_ofNat, List.take, List.length_cons, List.length_nil]
        omega
      · intro hn
        have : r.type = 2 := by
          rcases hn with h | h
          · exact h
          · omega
        simp only [if_pos this, le, toNat_ofNat, List.take, List.length_cons, List.length_nil]
        omega
    | [], h | [_], h | [_, _], h | [_, _, _], h => simp at h
  · rw [if_neg h1] at hw
    by_cases h2 : r.type ∈ [20, 21]
    · rw [if_pos h2] at hw
      cases hw
      have h1' : ¬ (r.type = 1 ∨ r.type = 2) := by simpa using h1
      have h2' : r.type = 20 ∨ r.type = 21 := by simpa using h2
      match buf, hl with
      | b0 :: b1 :: rest, _ =>
        have g0 := b0.toNat_lt
        have g1 := b1.toNat_lt
        simp only [field, if_neg h1', if_pos h2', e1, f1]
        refine ⟨[_, _], rfl, ?_⟩
        constructor
        · rfl
        · intro hn
          have : r.type ≠ 21 := fun h => hn (.inr h)
          simp only [if_neg this, le, toNat_ofNat, List.take, List.length_cons, List.length_nil]
          omega
        · intro hn
          have : r.type = 21 := by
            rcases hn with h | h
            · exact absurd (.inr h) h1'
            · exact h
          simp only [if_pos this, le, toNat_ofNat, List.take, List.length_cons, List.length_nil]
          omega
      | [], h | [_], h => simp at h
    · rw [if_neg h2] at hw
      cases hw

/-- only the bytes of the field matter -/
theorem field_append (r : Rel) (place w : Nat) (hw : width r.type = some w) (b c : Bytes) (hl : w ≤ b.length) :
    field r place (b ++ c) = match field r place b with
      | .error e => .error e
      | .ok b' => .ok (b' ++ c) := by
  unfold width at hw
  by_cases h1 : r.type ∈ [1, 2]
  · rw [if_pos h1] at hw
    cases hw
    have h1' : r.type = 1 ∨ r.type = 2 := by simpa using h1
    match b, hl with
    | b0 :: b1 :: b2 :: b3 :: rest, _ => simp only [field, if_pos h1', List.cons_append]
    | [], h | [_], h | [_, _], h | [_, _, _], h => simp at h
  · rw [if_neg h1] at hw
    by_cases h2 : r.type ∈ [20, 21]
    · rw [if_pos h2] at hw
      cases hw
      have h1' : ¬ (r.type = 1 ∨ r.type = 2) := by simpa using h1
      have h2' : r.type = 20 ∨ r.type = 21 := by simpa using h2
      match b, hl with
      | b0 :: b1 :: rest, _ => simp only [field, if_neg h1', if_pos h2', List.cons_append]
      | [], h | [_], h => simp at h
    · rw [if_neg h2] at hw
      cases hw

/-- relocation inside the middle part -/
theorem relocate_mid (r : Rel) (place i w : Nat) (hw : width r.type = some w) (a b c : Bytes) (ha : a.length ≤ i) (hl : i - a.length + w ≤ b.length) :
    relocate r place i (a ++ b ++ c) = match relocate r place (i - a.length) b with
      | .error e => .error e
      | .ok b' => .ok (a ++ b' ++ c) := by
  have e1 : (a ++ b ++ c).drop i = b.drop (i - a.length) ++ c := by
    rw [List.append_assoc, List.drop_append, List.drop_eq_nil_of_le ha, List.nil_append, List.drop_append_of_le_length (by omega)]
  have e2 : (a ++ b ++ c).take i = a ++ b.take (i - a.length) := by
    rw [List.append_assoc, List.take_append, List.take_of_length_le ha, List.take_append_of_le_length (by omega)]
  unfold relocate
  rw [e1, e2, field_append r place w hw _ _ (by rw [List.length_drop]; omega)]
  cases field r place (b.drop (i - a.length)) with
  | error e => rfl
  | ok b' => simp

theorem relocate_ok (r : Rel) (place i w : Nat) (hw : width r.type = some w) (s : Bytes) (hl : i + w ≤ s.length) :
    ∃ new, relocate r place i s = .ok (s.take i ++ new ++ s.drop (i + w)) ∧ Fixed r place ((s.drop i).take w) new := by
  obtain ⟨new, h1, h2⟩ := field_spec r place w hw (s.drop i) (by rw [List.length_drop]; omega)
  refine ⟨new, ?_, h2⟩
  unfold relocate
  rw [h1]
  simp [List.append_assoc]

theorem relocate_length (r : Rel) (place i w : Nat) (hw : width r.type = some w) (s t : Bytes) (hl : i + w ≤ s.length)
    (h : relocate r place i s = .ok t) : t.length = s.length := by
  obtain ⟨new, h1, h2⟩ := relocate_ok r place i w hw s hl
  rw [h1] at h
  cases h
  have := h2.length
  simp at this ⊢
  omega

/-- the inner loop patches the middle of `out ++ buf ++ inp` -/
theorem inner_spec (base : Nat) (rels : List Rel) (out buf inp : Bytes) (ofs n : Nat) (hofs : ofs = out.length) (h32 : ofs + fbuf < 2 ^ 32)
    (hn : n = (out ++ buf ++ inp).length) (hin : ∀ r ∈ rels, Inside n r) (hge : ∀ r ∈ rels, ofs ≤ r.off)
    (hsort : rels.Pairwise (fun r r' => r.off ≤ r'.off))
    (hbuf : buf.length = min (n - ofs) (fbuf + 3)) :
    ∃ rels' buf', inner base ofs rels buf = .ok (rels', buf') ∧ buf'.length = buf.length ∧
      whole base rels (out ++ buf ++ inp) = whole base rels' (out ++ buf' ++ inp) ∧
      (∀ r ∈ rels', r ∈ rels ∧ ofs + fbuf ≤ r.off) ∧ rels'.Pairwise (fun r r' => r.off ≤ r'.off) := by
  induction rels generalizing buf with
  | nil => exact ⟨[], buf, rfl, rfl, rfl, by simp, .nil⟩
  | cons r rs ih =>
    simp only [inner]
    rw [Nat.mod_eq_of_lt h32]
    by_cases h : r.off < ofs + fbuf
    · rw [if_pos h, if_neg (by have := hge r (by simp); omega)]
      obtain ⟨w, hw, hwn⟩ := hin r (by simp)
      have hge' := hge r (by simp)
      have hw4 : w ≤ 4 := by
        unfold width at hw
        split at hw
        · cases hw; omega
        · split at hw
          · cases hw; omega
          · cases hw
      have hfit : r.off - out.length + w ≤ buf.length := by
        rw [hbuf]
        omega
      have hmid := relocate_mid r (r.off + base) r.off w hw out buf inp (by omega) hfit
      obtain ⟨new, h1, h2⟩ := relocate_ok r (r.off + base) (r.off - out.length) w hw buf hfit
      have hlen := relocate_length r (r.off + base) (r.off - out.length) w hw buf _ hfit h1
      obtain ⟨b, hb⟩ : ∃ b, b = buf.take (r.off - out.length) ++ new ++ buf.drop (r.off - out.length + w) := ⟨_, rfl⟩
      rw [← hb] at h1 hlen
      rw [h1] at hmid
      rw [hofs, h1]
      simp only
      have hnb : n = (out ++ b ++ inp).length := by
        rw [hn]
        simp [hlen]
      obtain ⟨rels', buf', g1, g2, g3, g4, g5⟩ := ih b hnb (fun r h => hin r (List.mem_cons_of_mem _ h)) (fun r h => hge r (List.mem_cons_of_mem _ h))
        (List.pairwise_cons.1 hsort).2 (by rw [hlen, hbuf])
      refine ⟨rels', buf', by rw [← hofs]; exact g1, by rw [g2, hlen], ?_, ?_, g5⟩
      · rw [whole, hmid]
        exact g3
      · intro r' hr'
        rw [← hofs]
        exact ⟨List.mem_cons_of_mem _ (g4 r' hr').1, (g4 r' hr').2⟩
    · rw [if_neg h]
      refine ⟨r :: rs, buf, rfl, rfl, rfl, ?_, hsort⟩
      intro r' hr'
      refine ⟨hr', ?_⟩
      rcases List.mem_cons.1 hr' with rfl | h'
      · omega
      · have := (List.pairwise_cons.1 hsort).1 r' h'
        omega

/-- the outer loop -/
theorem outer_spec (base : Nat) (fuel : Nat) (inp rest : Bytes) (buf out : Bytes) (rels : List Rel) (n : Nat)
    (hn : n = (out ++ buf ++ inp).length) (h32 : n + fbuf ≤ 2 ^ 32) (hfuel : buf.length + inp.length < fuel)
    (hbuf : buf.length = min (n - out.length) 3) (hin : ∀ r ∈ rels, Inside n r) (hge : ∀ r ∈ rels, out.length ≤ r.off)
    (hofs : out.length % fbuf = 0 ∨ buf = []) (hsort : rels.Pairwise (fun r r' => r.off ≤ r'.off)) (ofs : Nat) (ho : ofs = out.length ∨ buf = []) :
    ∃ t, whole base rels (out ++ buf ++ inp) = .ok t ∧ outer base fuel (inp ++ rest) inp.length buf ofs rels out = .ok (t, rest) := by
  induction fuel generalizing inp buf out rels ofs with
  | zero => omega
  | succ fuel ih =>
    simp only [outer]
    by_cases h0 : buf.length = 0
    · rw [if_pos h0]
      have hb : buf = [] := List.length_eq_zero_iff.1 h0
      subst hb
      have hil : inp = [] := by
        simp only [List.append_nil, List.length_append, List.length_nil] at hn hbuf
        exact List.length_eq_zero_iff.1 (by omega)
      subst hil
      have hr : rels = [] := by
        cases rels with
        | nil => rfl
        | cons r rs =>
          exfalso
          obtain ⟨w, hw, hwn⟩ := hin r (by simp)
          have := hge r (by simp)
          have hw0 : 0 < w := by
            unfold width at hw
            split at hw
            · cases hw; omega
            · split at hw
              · cases hw; omega
              · cases hw
          simp at hn
          omega
      subst hr
      exact ⟨out, by simp [whole], by simp⟩
    · rw [if_neg h0]
      have hbne : buf ≠ [] := fun h => h0 (by simp [h])
      have ho' : ofs = out.length := ho.resolve_right hbne
      have ho2 := hofs.resolve_right hbne
      obtain ⟨csz, hcsz⟩ : ∃ csz, csz = (if inp.length > fbuf then fbuf else inp.length) := ⟨_, rfl⟩
      rw [← hcsz]
      have hcsz' : csz = min inp.length fbuf := by rw [hcsz]; split <;> omega
      rw [if_neg (by rw [List.length_append]; omega)]
      have htake : (inp ++ rest).take csz = inp.take csz := List.take_append_of_le_length (by omega)
      have hdrop : (inp ++ rest).drop csz = inp.drop csz ++ rest := List.drop_append_of_le_length (by omega)
      rw [htake, hdrop]
      have hsplit : out ++ (buf ++ inp.take csz) ++ inp.drop csz = out ++ buf ++ inp := by
        simp [List.append_assoc]
      have hnl : n = out.length + buf.length + inp.length := by rw [hn]; simp; omega
      have hlt : out.length + fbuf < 2 ^ 32 := by
        simp only [fbuf] at *
        omega
      obtain ⟨rels', buf', g1, g2, g3, g4, g5⟩ := inner_spec base rels out (buf ++ inp.take csz) (inp.drop csz) ofs n ho' (by rw [ho']; exact hlt)
        (by rw [hsplit]; exact hn) hin (by rw [ho']; exact hge) hsort (by
          rw [List.length_append, List.length_take, ho', hcsz', hbuf, hnl]
          simp only [fbuf] at *
          omega)
      rw [g1]
      simp only
      rw [hsplit] at g3
      obtain ⟨wsz, hwsz⟩ : ∃ wsz, wsz = (if buf'.length > fbuf then fbuf else buf'.length) := ⟨_, rfl⟩
      rw [← hwsz]
      have hwsz' : wsz = min buf'.length fbuf := by rw [hwsz]; split <;> omega
      have hb'len : buf'.length = buf.length + csz := by
        rw [g2, List.length_append, List.length_take]
        omega
      have hsplit2 : out ++ buf'.take wsz ++ buf'.drop wsz ++ inp.drop csz = out ++ buf' ++ inp.drop csz := by
        simp [List.append_assoc]
      have hsz : inp.length - csz = (inp.drop csz).length := by simp
      rw [hsz, ho', Nat.mod_eq_of_lt hlt, g3, ← hsplit2]
      have hol : (out ++ buf'.take wsz).length = out.length + wsz := by
        rw [List.length_append, List.length_take]
        omega
      have hdl : (buf'.drop wsz).length = buf'.length - wsz := List.length_drop
      have hcase : wsz = fbuf ∨ buf'.drop wsz = [] := by
        by_cases h : buf'.length > fbuf
        · left; rw [hwsz, if_pos h]
        · right
          apply List.drop_eq_nil_of_le
          rw [hwsz, if_neg h]
          exact Nat.le_refl _
      apply ih
      · rw [hsplit2]
        simp only [List.length_append, List.length_drop]
        omega
      · rw [hdl, List.length_drop]
        have : fbuf = 1024 := rfl
        omega
      · rw [hdl, hol]
        simp only [fbuf] at *
        omega
      · intro r hr
        exact hin r (g4 r hr).1
      · intro r hr
        have := (g4 r hr).2
        rw [hol]
        omega
      · rw [hol]
        rcases hcase with h | h
        · left
          rw [h, Nat.add_mod, ho2]
          simp
        · exact .inr h
      · exact g5
      · rw [hol]
        rcases hcase with h | h
        · left; rw [h]
        · exact .inr h

end Smlr.Reloc
