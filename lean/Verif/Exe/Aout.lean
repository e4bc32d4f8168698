import Verif.Exe.Read
set_option autoImplicit false
namespace Smlr.Exe
open Smlr.Sect

theorem aout_read (t d b e tr dr : Nat) (rest f : Bytes) (hf : f = aoutHeader t d b e tr dr ++ rest) :
    u16 f 0 = 0x107 ∧ u16 f 2 = 0x64 ∧ u32 f 4 = t % 4294967296 ∧ u32 f 8 = d % 4294967296 ∧ u32 f 12 = b % 4294967296 ∧ u32 f 20 = e % 4294967296 ∧
    u32 f 24 = tr % 4294967296 ∧ u32 f 28 = dr % 4294967296 := by
  subst hf
  unfold aoutHeader
  simp only [List.append_assoc]
  refine ⟨rfl, rfl, ?_⟩
  simp only [u32_skip32, u32_zero, and_self]

theorem aout_len (t d b e tr dr : Nat) : (aoutHeader t d b e tr dr).length = 32 := by
  simp only [aoutHeader, le32, List.length_append, List.length_cons, List.length_nil]

/-- `data` and `bss` -/
theorem aout_sizes (c : Cfg) (ds : List Desc) (st : St) (A : Nat) (hf : Facts c c.useBss ds st) (hp : Paged c.fmt) (hP : Pages c ds st A) (hA : 0 < A) (h0 : c.origin = 0) :
    ∃ F E, aoutData c.useBss ds st = .ok (F - A, E - F) ∧ A ≤ F ∧ F ≤ E ∧ F < 2 ^ 32 ∧ E ≤ 2 ^ 32 ∧ F = st.out.length ∧
      (∀ p ∈ st.placed, fin p ≤ E ∧ (FileA c p.sec.attrs → fin p ≤ F) ∧ (¬ FileA c p.sec.attrs → F ≤ p.addr)) := by
  have hlt := hP.lt
  have hmod := hP.mod
  cases hh : hasData ds with
  | false =>
    have hn := hP.noData hh
    rw [h0, Nat.zero_add] at hn
    refine ⟨A, A, ?_, Nat.le_refl _, Nat.le_refl _, hP.lt, by omega, hn, ?_⟩
    · unfold aoutData
      rw [hh, Nat.sub_self]
      rfl
    · intro p hp'
      have he := hf.noData hh p hp'
      have := (hP.exec p hp' he).2
      exact ⟨this, fun _ => this, fun hn => absurd (.inl (hf.px p hp' he)) hn⟩
  | true =>
    obtain ⟨F, k1, k2, k3, k4, k5, k6, k7, k8⟩ := filesz_ok c ds st A hf hp hP hh
    rw [h0, Nat.zero_add] at k5
    obtain ⟨s1, s2, s3⟩ := hP.start hh
    have hdn : down st.data.1 = A := by rw [s1]; unfold down; omega
    have hms : sub32 (up st.data.2) A = pg st.data.2 - A := by
      unfold up down pg sub32
      omega
    have hpl : pg st.data.2 ≤ 2 ^ 32 := by
      unfold pg
      omega
    have hfin : ∀ p ∈ st.placed, fin p ≤ pg st.data.2 ∧ (FileA c p.sec.attrs → fin p ≤ F) ∧ (¬ FileA c p.sec.attrs → F ≤ p.addr) := by
      intro p hp'
      refine ⟨?_, k7 p hp', k8 p hp'⟩
      cases he : p.sec.attrs.exec with
      | true =>
        have := (hP.exec p hp' he).2
        omega
      | false => exact (hP.data p hp' he).2
    refine ⟨F, pg st.data.2, ?_, k2, k3, k4, hpl, k5, hfin⟩
    unfold dataFilesz at k1
    unfold aoutData
    rw [hh, hdn, hms]
    rw [hdn, hms] at k1
    simp only [if_true]
    cases hb : bssLast c.useBss ds with
    | false =>
      rw [hb] at k1
      simp only [Bool.false_eq_true, if_false, Except.ok.injEq] at k1
      have : F = pg st.data.2 := by omega
      simp only [Bool.false_eq_true, if_false]
      rw [← this, Nat.sub_self]
    | true =>
      rw [hb] at k1
      obtain ⟨-, -, d, stop, g1, -, ⟨q, hq, -, hqe, hqf⟩, -⟩ := hf.bss hb
      rw [g1] at k1 ⊢
      simp only [if_true, Except.ok.injEq] at k1 ⊢
      have hda : (if (!d.attrs.exec) = true then sub32 (up stop) A else 0) = F - A := by
        cases hde : d.attrs.exec with
        | false => simpa using k1
        | true =>
          simp only [Bool.not_true, Bool.false_eq_true, if_false]
          rw [hde] at hqe
          have h1 := (hP.exec q hq hqe).2
          rw [hqf] at h1
          have h2 := pg_le h1 hmod
          rw [up_eq stop (by omega)] at k1
          have h3 : pg stop = A := by
            unfold sub32 at k1
            by_cases hx : pg stop = A
            · exact hx
            · have : pg stop < A := by omega
              rw [Nat.mod_eq_of_lt (by omega)] at k1
              omega
          rw [h3] at k1
          unfold sub32 at k1
          omega
      rw [hda]
      have : sub32 (pg st.data.2 - A) (F - A) = pg st.data.2 - F := by
        unfold sub32
        omega
      rw [this]

end Smlr.Exe
