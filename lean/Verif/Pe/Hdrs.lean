import Verif.Pe.Layout
import Verif.Pe.Read
set_option autoImplicit false
/-! The headers of a PE file, and files that are changed in place. -/
namespace Smlr.Pe
open Smlr.Sect
open Smlr.Exe

/-- the image: in the file up to `F`, in memory up to `E` -/
structure Ends (c : Cfg) (n : Counts) (ds : List Desc) (st : St) (A I F E : Nat) : Prop where
  if_ : I ≤ F
  fe : F ≤ E
  modF : F % 4096 = 0
  modE : E % 4096 = 0
  ltE : E < 2 ^ 32
  len : F = c.origin + st.out.length
  stop : stop n st = E
  file : ∀ p ∈ st.placed, FileA c p.sec.attrs → fin p ≤ F
  zeros : ∀ p ∈ st.placed, ¬ FileA c p.sec.attrs → F ≤ p.addr
  all : ∀ p ∈ st.placed, fin p ≤ E
  noData : n.data = false → E = I
  data : n.hasData = true → dataFilesz c.useBss ds st = .ok (F - A) ∧ up st.data.2 = E ∧ st.data.1 = A
  code : up st.code.2 = A ∧ st.code.1 = c.origin
  last : ∃ p ∈ st.placed, E = pg (fin p)

theorem ends (c : Cfg) (hpe : c.fmt = .winPe32) (n : Counts) (ds : List Desc) (st : St) (A R I : Nat) (h : Parts c.origin n st A R I) (hF : Facts c c.useBss ds st) (hh : Exe.hasData ds = n.hasData)
    (ho : c.origin % 4096 = 0) (hroom : ∀ p ∈ st.placed, fin p + 8192 ≤ 2 ^ 32) : ∃ F E, Ends c n ds st A I F E := by
  have hP : Paged c.fmt := .inl hpe
  obtain ⟨A', hG⟩ := Exe.pages _ ds st hF hP
  have hA : A' = A := parts_code c n ds st A R I A' h hF hG
  subst hA
  have hcode : up st.code.2 = A' ∧ st.code.1 = c.origin := ⟨hG.up, hG.first ho⟩
  have hrd : n.hasData = false → n.ro = 0 ∧ n.imp = 0 ∧ n.data = false := by
    intro hn
    unfold Counts.hasData at hn
    simp at hn
    exact ⟨hn.1.1, hn.1.2, hn.2⟩
  cases hn : n.hasData with
  | false =>
    obtain ⟨e1, e2, e3⟩ := hrd hn
    have eI : I = A' := by rw [h.noImp e2, h.noRo e1]
    have hall := hF.noData (by rw [hh, hn])
    obtain ⟨p, hp, hpe', hpg⟩ := h.text
    have hfile : ∀ p ∈ st.placed, fin p ≤ A' := fun p hp => (hG.exec p hp (hall p hp)).2
    refine ⟨A', A', by omega, Nat.le_refl _, hG.mod, hG.mod, hG.lt, hG.noData (by rw [hh, hn]), ?_, fun p hp _ => hfile p hp, ?_, hfile, fun _ => eI.symm, fun h => (by rw [hn] at h; cases h), hcode, p, hp, hpg.symm⟩
    · unfold stop
      rw [hn]
      exact hG.up
    · intro q hq hqn
      exact absurd (.inl (hF.px q hq (hall q hq))) hqn
  | true =>
    have hh' : Exe.hasData ds = true := by rw [hh, hn]
    obtain ⟨F, k1, k2, k3, k4, k5, k6, k7, k8⟩ := filesz_ok _ ds st A' hF hP hG hh'
    obtain ⟨t1, t2, t3⟩ := hG.start hh'
    obtain ⟨-, -, ⟨y, hy, hy'⟩⟩ := hF.data hh'
    obtain ⟨hy0, hye⟩ := List.mem_filter.1 hy
    have hy2 : fin y = st.data.2 := hy'
    have hyr := hroom y hy0
    have hlt : pg st.data.2 < 2 ^ 32 := by unfold pg; omega
    have hup := up_eq _ hlt
    have hIF : I ≤ F := by
      by_cases hi : n.imp = 0
      · rw [h.noImp hi]
        by_cases hr : n.ro = 0
        · rw [h.noRo hr]; exact k2
        · obtain ⟨sp, -, r2, q, r3, r4, -, r5⟩ := h.ro hr
          have := k7 q r3 (.inl r4)
          rw [r5] at this
          rw [← r2]
          exact pg_le this k6
      · obtain ⟨sp, sp', -, r2, -, -, q, r3, r4, -, r5⟩ := h.imp hi
        have := k7 q r3 (.inl r4)
        rw [r5] at this
        rw [← r2]
        exact pg_le this k6
    refine ⟨F, pg st.data.2, hIF, k3, k6, pg_mod _, hlt, k5, ?_, k7, k8, ?_, ?_, fun _ => ⟨k1, hup, t1⟩, hcode, y, hy0, by rw [hy2]⟩
    · unfold stop
      rw [hn]
      exact hup
    · intro p hp
      cases he : p.sec.attrs.exec with
      | true =>
        have := (hG.exec p hp he).2
        omega
      | false => exact (hG.data p hp he).2
    · intro hd
      have h1 : fin y ≤ I := by
        have ha := h.ri
        rcases h.where_ y hy0 with ⟨e, -⟩ | ⟨-, -, -, e⟩ | ⟨-, -, -, e⟩ | ⟨e, -⟩
        · rw [e] at hye; cases hye
        · omega
        · exact e
        · rw [hd] at e; cases e
      have := pg_le h1 h.modI
      rw [hy2] at this
      omega

/-- the header of the part from `S` to `T`, of which the file has what is below `U` -/
def hd (base S T U : Nat) : Hdr := ⟨T - S, S - base, U - S, 1024 + (S - (base + 4096))⟩

def shdrs (base : Nat) (n : Counts) (A R I F E : Nat) : List SHdr :=
  [⟨str ".text", hd base (base + 4096) A A, 0x60000020⟩] ++ (if n.ro ≠ 0 then [⟨str ".rdata", hd base A R R, 0x40000040⟩] else []) ++
  (if n.imp ≠ 0 then [⟨str ".idata", hd base R I I, 0xc0000040⟩] else []) ++ (if n.data then [⟨str ".data", hd base I E F, 0xc0000040⟩] else [])

theorem sections_eq (useBss : Bool) (org : Nat) (n : Counts) (ds : List Desc) (st : St) (A R I F E : Nat) (hb : base org % 4096 = 0)
    (h : Parts (base org + 4096) n st A R I) (hE : Ends (cfg useBss org) n ds st A I F E) :
    sections useBss (base org) ds st n = .ok (shdrs (base org) n A R I F E) := by
  obtain ⟨b, hbe⟩ : ∃ b, b = base org := ⟨_, rfl⟩
  have ho : (cfg useBss org).origin = b + 4096 := by rw [hbe]; rfl
  rw [← hbe] at h hb ⊢
  obtain ⟨c1, c2⟩ := hE.code
  rw [ho] at c2
  have h1 := h.oa
  have h2 := h.ar
  have h3 := h.ri
  have h4 := hE.if_
  have h5 := hE.fe
  have h6 := hE.ltE
  have h7 := h.modA
  have h8 := h.modR
  have hsub : ∀ x y, y ≤ x → x < 2 ^ 32 → sub32 x y = x - y := by
    intro x y g1 g2
    unfold sub32
    omega
  have hdn : ∀ x, x % 4096 = 0 → down x = x := by
    intro x hx
    unfold down
    omega
  have ht : textHdr b st = hd b (b + 4096) A A := by
    unfold textHdr hd
    rw [c1, c2, hdn _ (by omega), hsub _ _ h1 (by omega), hsub _ _ (by omega) (by omega), Nat.sub_self]
  unfold sections
  dsimp only
  rw [ht]
  cases hn : n.hasData with
  | false =>
    unfold Counts.hasData at hn
    simp at hn
    unfold shdrs
    simp [hn.1.1, hn.1.2, hn.2]
  | true =>
    obtain ⟨d1, d2, d3⟩ := hE.data hn
    have hup : ∀ x, pg x < 2 ^ 32 → up x = pg x := up_eq
    have hd0 : dataHdr useBss b ds st = .ok (hd b A E F) := by
      unfold dataHdr
      rw [show dataFilesz useBss ds st = _ from d1, d2, d3, ht, hdn _ h7, hsub _ _ (by omega) (by omega), hsub _ _ (by omega) (by omega)]
      simp only [hd]
      rw [show (1024 + (b + 4096 - (b + 4096)) + (A - (b + 4096))) % 2 ^ 32 = 1024 + (A - (b + 4096)) by omega]
    rw [hd0]
    simp only [if_true]
    have hcarve : ∀ S T, A ≤ S → S ≤ T → T ≤ F → carve (hd b S E F) (T - S) = (hd b S T T, hd b T E F) := by
      intro S T g1 g2 g3
      unfold carve hd
      simp only [Prod.mk.injEq, Hdr.mk.injEq, true_and]
      rw [hsub _ _ (by omega) (by omega), hsub _ _ (by omega) (by omega)]
      omega
    have hro : carveRo n st (hd b A E F) = .ok (if n.ro ≠ 0 then [⟨str ".rdata", hd b A R R, 0x40000040⟩] else [], hd b R E F) := by
      unfold carveRo
      by_cases hr : n.ro = 0
      · rw [h.noRo hr]
        simp [hr]
      · obtain ⟨sp, r1, r2, -⟩ := h.ro hr
        rw [if_pos hr, if_pos hr, r1]
        dsimp only
        rw [hup _ (by omega), r2, d3, hdn _ h7, hsub _ _ h2 (by omega), hcarve _ _ (Nat.le_refl _) h2 (by omega)]
    rw [hro]
    dsimp only
    have him : carveImp n st (hd b R E F) = .ok (if n.imp ≠ 0 then [⟨str ".idata", hd b R I I, 0xc0000040⟩] else [], hd b I E F) := by
      unfold carveImp
      by_cases hi : n.imp = 0
      · rw [h.noImp hi]
        simp [hi]
      · obtain ⟨sp, sp', r1, r2, r3, r4, -⟩ := h.imp hi
        rw [if_pos hi, if_pos hi, r1, r3]
        dsimp only
        rw [hup _ (by omega), r2, r4, hdn _ h8, hsub _ _ h3 (by omega), hcarve _ _ h2 h3 (by omega)]
    rw [him]
    rfl

theorem fit_append (f : Bytes) (a b : List SHdr) : ∀ va m e, Fit f va a m → Fit f m b e → Fit f va (a ++ b) e := by
  induction a with
  | nil =>
    intro va m e h1 h2
    have h1 : va = m := h1
    rw [h1]
    exact h2
  | cons s a ih =>
    intro va m e h1 h2
    obtain ⟨g1, g2, g3, g4, g5, g6, g7, g8, g9, g10, g11, g12⟩ := h1
    exact ⟨g1, g2, g3, g4, g5, g6, g7, g8, g9, g10, g11, ih _ _ _ g12 h2⟩

theorem shdrs_fit (f : Bytes) (b : Nat) (n : Counts) (A R I F E : Nat) (hb : b % 4096 = 0) (h1 : b + 4096 ≤ A) (h2 : A ≤ R) (h3 : R ≤ I) (h4 : I ≤ F) (h5 : F ≤ E) (h6 : E < 2 ^ 32)
    (m1 : A % 4096 = 0) (m2 : R % 4096 = 0) (m3 : I % 4096 = 0) (m4 : F % 4096 = 0) (m5 : E % 4096 = 0) (hl : 1024 + (F - (b + 4096)) ≤ f.length)
    (e1 : n.ro = 0 → R = A) (e2 : n.imp = 0 → I = R) (e3 : n.data = false → E = I) : Fit f 4096 (shdrs b n A R I F E) (E - b) := by
  have one : ∀ (nm : Bytes) (fl S T U : Nat), nm.length ≤ 8 → fl < 2 ^ 32 → b + 4096 ≤ S → S ≤ U → U ≤ T → U ≤ F → T ≤ E → S % 4096 = 0 → T % 4096 = 0 → U % 4096 = 0 →
      Fit f (S - b) [⟨nm, hd b S T U, fl⟩] (T - b) := by
    intro nm fl S T U g1 g2 g3 g4 g5 g6 g7 g8 g9 g10
    have hp : pages (T - S) = T - S := by unfold pages; omega
    refine ⟨rfl, ?_, ?_, ?_, ?_, g1, ?_, ?_, ?_, ?_, g2, ?_⟩
    · show (U - S) % 512 = 0; omega
    · show (1024 + (S - (b + 4096))) % 512 = 0; omega
    · show 1024 + (S - (b + 4096)) + (U - S) ≤ f.length; omega
    · show U - S ≤ pages (T - S); omega
    · show S - b < 2 ^ 32; omega
    · show T - S < 2 ^ 32; omega
    · show U - S < 2 ^ 32; omega
    · show 1024 + (S - (b + 4096)) < 2 ^ 32; omega
    · show S - b + pages (T - S) = T - b; omega
  unfold shdrs
  refine fit_append f _ _ _ (I - b) _ (fit_append f _ _ _ (R - b) _ (fit_append f _ _ _ (A - b) _ ?_ ?_) ?_) ?_
  · have := one (str ".text") 0x60000020 (b + 4096) A A (by decide) (by decide) (Nat.le_refl _) h1 (Nat.le_refl _) (by omega) (by omega) (by omega) m1 m1
    rw [show b + 4096 - b = 4096 by omega] at this
    exact this
  · by_cases hr : n.ro = 0
    · rw [if_neg (fun h => h hr), e1 hr]
      rfl
    · rw [if_pos hr]
      exact one _ _ A R R (by decide) (by decide) h1 h2 (Nat.le_refl _) (by omega) (by omega) m1 m2 m2
  · by_cases hi : n.imp = 0
    · rw [if_neg (fun h => h hi), e2 hi]
      rfl
    · rw [if_pos hi]
      exact one _ _ R I I (by decide) (by decide) (by omega) h3 (Nat.le_refl _) (by omega) (by omega) m2 m3 m3
  · cases hd' : n.data with
    | false =>
      rw [e3 hd']
      rfl
    | true =>
      exact one _ _ I E F (by decide) (by decide) (by omega) h4 h5 (Nat.le_refl _) (Nat.le_refl _) m3 m5 m4

theorem shdrs_len' (b : Nat) (n : Counts) (A R I F E : Nat) : (shdrs b n A R I F E).length ≤ 4 := by
  unfold shdrs
  simp only [List.length_append]
  split <;> split <;> split <;> simp

theorem shdrs_name (b : Nat) (n : Counts) (A R I F E : Nat) : ∀ s ∈ shdrs b n A R I F E, s.name.length ≤ 8 := by
  intro s hs
  unfold shdrs at hs
  have key : s.name = str ".text" ∨ s.name = str ".rdata" ∨ s.name = str ".idata" ∨ s.name = str ".data" := by
    simp only [List.mem_append, List.mem_singleton] at hs
    rcases hs with ((hs | hs) | hs) | hs
    · rw [hs]; simp
    · split at hs
      · rw [List.mem_singleton.1 hs]; simp
      · cases hs
    · split at hs
      · rw [List.mem_singleton.1 hs]; simp
      · cases hs
    · split at hs
      · rw [List.mem_singleton.1 hs]; simp
      · cases hs
  rcases key with h | h | h | h <;> rw [h] <;> decide

/-- the last header ends where the image ends -/
theorem shdrs_last (b : Nat) (n : Counts) (A R I F E : Nat) (h0 : b + 4096 ≤ A) (h1 : A ≤ R) (h2 : R ≤ I) (h3 : I ≤ E) (e1 : n.ro = 0 → R = A) (e2 : n.imp = 0 → I = R) (e3 : n.data = false → E = I) :
    ∃ s, (shdrs b n A R I F E).getLast? = some s ∧ s.h.va + s.h.vsize = E - b := by
  unfold shdrs
  cases hd' : n.data with
  | true =>
    refine ⟨_, by rw [List.getLast?_append]; rfl, ?_⟩
    show I - b + (E - I) = E - b
    omega
  | false =>
    have e3 := e3 hd'
    simp only [Bool.false_eq_true, if_false, List.append_nil]
    by_cases hi : n.imp = 0
    · have e2 := e2 hi
      rw [if_neg (c := n.imp ≠ 0) (fun h => h hi), List.append_nil]
      by_cases hr : n.ro = 0
      · have e1 := e1 hr
        rw [if_neg (c := n.ro ≠ 0) (fun h => h hr), List.append_nil]
        refine ⟨_, rfl, ?_⟩
        show b + 4096 - b + (A - (b + 4096)) = E - b
        omega
      · rw [if_pos (c := n.ro ≠ 0) hr]
        refine ⟨_, by rw [List.getLast?_append]; rfl, ?_⟩
        show A - b + (R - A) = E - b
        omega
    · rw [if_pos (c := n.imp ≠ 0) hi]
      refine ⟨_, by rw [List.getLast?_append]; rfl, ?_⟩
      show R - b + (I - R) = E - b
      omega

theorem header_len (o : Opt) (fl : Nat) (hs : List SHdr) (h : ∀ s ∈ hs, s.name.length ≤ 8) (hn : hs.length ≤ 5) : (header o fl hs).length = 1024 := by
  unfold header
  rw [List.length_append, stub_len, List.length_append, sig_len, List.length_append, fileHdr_len, List.length_append, opt_len, List.length_append, shdrs_len hs h, List.length_append,
    List.length_replicate, List.length_replicate]
  omega

/-! ### changes in place -/

theorem patch_mid (a x b c : Bytes) (k : Nat) (hk : k = a.length) (h : x.length = b.length) : patch (a ++ (x ++ c)) (k, b) = a ++ (b ++ c) := by
  unfold patch
  rw [hk, Fixup.write_mid a x b c h]

theorem patch_len (f : Bytes) (w : Nat × Bytes) (h : w.1 + w.2.length ≤ f.length) : (patch f w).length = f.length := by
  unfold patch Fixup.File.write
  simp only [List.length_append, List.length_take, List.length_drop]
  omega

theorem patch_get (f : Bytes) (w : Nat × Bytes) (h : w.1 + w.2.length ≤ f.length) (k : Nat) (hk : k < w.1 ∨ w.1 + w.2.length ≤ k) : (patch f w)[k]? = f[k]? := by
  unfold patch Fixup.File.write
  simp only
  rcases hk with hk | hk
  · rw [List.append_assoc, List.getElem?_append_left (by rw [List.length_take]; omega), List.getElem?_take_of_lt hk]
  · rw [List.getElem?_append_right (by rw [List.length_append, List.length_take]; omega), List.getElem?_drop]
    congr 1
    rw [List.length_append, List.length_take]
    omega

/-- bytes `a` to `a + n` are not touched -/
def Clear (ws : List (Nat × Bytes)) (a n : Nat) : Prop := ∀ w ∈ ws, a + n ≤ w.1 ∨ w.1 + w.2.length ≤ a

theorem patches (ws : List (Nat × Bytes)) : ∀ (f : Bytes), (∀ w ∈ ws, w.1 + w.2.length ≤ f.length) → (ws.foldl patch f).length = f.length ∧
    ∀ a n, Clear ws a n → ((ws.foldl patch f).drop a).take n = (f.drop a).take n := by
  induction ws with
  | nil =>
    intro f _
    exact ⟨rfl, fun _ _ _ => rfl⟩
  | cons w ws ih =>
    intro f h
    have hw := h w (List.mem_cons_self ..)
    have hl := patch_len f w hw
    obtain ⟨i1, i2⟩ := ih (patch f w) (fun x hx => by rw [hl]; exact h x (List.mem_cons_of_mem _ hx))
    refine ⟨i1.trans hl, ?_⟩
    intro a n hc
    rw [List.foldl_cons, i2 a n (fun x hx => hc x (List.mem_cons_of_mem _ hx))]
    apply List.ext_getElem?
    intro k
    rw [List.getElem?_take, List.getElem?_take]
    split
    · rw [List.getElem?_drop, List.getElem?_drop, patch_get f w hw]
      have := hc w (List.mem_cons_self ..)
      omega
    · rfl

theorem reheader_eq (o : Opt) (hs : List SHdr) (last : Hdr) (rest : Bytes) (size ptr : Nat) (hn : hs.length ≤ 4) (hnm : ∀ s ∈ hs, s.name.length ≤ 8) :
    reheader o hs last (header o 0x30F hs ++ rest) size ptr =
      header (optReloc o (relocHdr last size ptr).h size) 0x30E (hs ++ [relocHdr last size ptr]) ++ rest := by
  obtain ⟨r, hr⟩ : ∃ r, r = relocHdr last size ptr := ⟨_, rfl⟩
  have hrl : r.bytes.length = 40 := by rw [hr]; exact shdr_len _ (show (str ".reloc").length ≤ 8 by decide)
  obtain ⟨o', ho'⟩ : ∃ x, x = optReloc o r.h size := ⟨_, rfl⟩
  have hfl : 0x30F &&& (2 ^ 16 - 1 - 1) = 0x30E := by decide
  unfold reheader
  dsimp only
  rw [← hr, ← ho', hfl]
  obtain ⟨sig, hsig⟩ : ∃ x, x = str "PE" ++ [(0 : UInt8), 0] := ⟨_, rfl⟩
  have hsl : sig.length = 4 := by rw [hsig]; exact sig_len
  unfold header
  rw [← hsig, List.length_append, List.length_singleton, List.flatMap_append, show [r].flatMap SHdr.bytes = r.bytes by simp]
  obtain ⟨H, hH⟩ : ∃ x, x = hs.flatMap SHdr.bytes := ⟨_, rfl⟩
  have hHl : H.length = hs.length * 40 := by rw [hH]; exact shdrs_len hs hnm
  rw [← hH]
  obtain ⟨k, hk⟩ : ∃ k, k = hs.length := ⟨_, rfl⟩
  rw [← hk] at hn hHl ⊢
  have hz : List.replicate ((5 - k) * 40) (0 : UInt8) = List.replicate 40 0 ++ List.replicate ((5 - (k + 1)) * 40) 0 := by
    rw [List.replicate_append_replicate]
    congr 1
    omega
  rw [hz]
  have s1 := stub_len
  obtain ⟨st, hst⟩ : ∃ x, x = stub := ⟨_, rfl⟩
  rw [← hst] at s1 ⊢
  obtain ⟨Z, hZ⟩ : ∃ x, x = List.replicate ((5 - (k + 1)) * 40) (0 : UInt8) := ⟨_, rfl⟩
  obtain ⟨P, hP⟩ : ∃ x, x = List.replicate (1024 - 576) (0 : UInt8) := ⟨_, rfl⟩
  obtain ⟨Q, hQ⟩ : ∃ x, x = List.replicate 40 (0 : UInt8) := ⟨_, rfl⟩
  have hQl : Q.length = 40 := by rw [hQ]; simp
  rw [← hZ, ← hP, ← hQ]
  have l1 := fileHdr_len k 0x30F
  have l2 := fileHdr_len (k + 1) 0x30E
  have l3 := opt_len o
  have l4 := opt_len o'
  obtain ⟨f1, hf1⟩ : ∃ x, x = fileHdr k 0x30F := ⟨_, rfl⟩
  obtain ⟨f2, hf2⟩ : ∃ x, x = fileHdr (k + 1) 0x30E := ⟨_, rfl⟩
  obtain ⟨o1, ho1⟩ : ∃ x, x = optHdr o := ⟨_, rfl⟩
  obtain ⟨o2, ho2⟩ : ∃ x, x = optHdr o' := ⟨_, rfl⟩
  rw [← hf1] at l1 ⊢
  rw [← hf2] at l2 ⊢
  rw [← ho1] at l3 ⊢
  rw [← ho2] at l4 ⊢
  have e1 := patch_mid (st ++ sig) f1 f2 (o1 ++ (H ++ (Q ++ (Z ++ (P ++ rest))))) 132 (by rw [List.length_append, s1, hsl]) (by rw [l1, l2])
  have e2 := patch_mid (st ++ (sig ++ f2)) o1 o2 (H ++ (Q ++ (Z ++ (P ++ rest)))) 152 (by rw [List.length_append, List.length_append, s1, hsl, l2]) (by rw [l3, l4])
  have e3 := patch_mid (st ++ (sig ++ (f2 ++ (o2 ++ H)))) Q r.bytes (Z ++ (P ++ rest)) (376 + k * 40)
    (by rw [List.length_append, List.length_append, List.length_append, List.length_append, s1, hsl, l2, l4, hHl]; omega) (by rw [hQl, hrl])
  simp only [List.append_assoc] at e1 e2 e3 ⊢
  rw [e1, e2, e3]

end Smlr.Pe
