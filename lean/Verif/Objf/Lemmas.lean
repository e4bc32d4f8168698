import Verif.Objf.Spec
set_option autoImplicit false
/-! Lemmas for C55. -/
namespace Smlr.Objf
open Smlr.Sect (Bytes)
open Smlr.Link (Name)
open Smlr.Reloc (Sym)
open Smlr.Whole (RawRel MSec Module)

/-! ### bytes -/

def w16 (x : Nat) : Nat := (UInt8.ofNat x).toNat + (UInt8.ofNat (x / 256)).toNat * 256
def w32 (x : Nat) : Nat := w16 x + w16 (x / 65536) * 65536

theorem w16_eq {x : Nat} (h : x < 2 ^ 16) : w16 x = x := by
  simp only [w16, UInt8.toNat_ofNat']
  omega

theorem w16_mod (x : Nat) : w16 x = x % 65536 := by
  simp only [w16, UInt8.toNat_ofNat']
  omega

theorem w32_eq {x : Nat} (h : x < 2 ^ 32) : w32 x = x := by
  simp only [w32, w16_mod]
  omega

theorem g16_zero (x : Nat) (r : Bytes) : g16 (b16 x ++ r) 0 = w16 x := rfl
theorem g32_zero (x : Nat) (r : Bytes) : g32 (b32 x ++ r) 0 = w32 x := rfl
theorem g32_nil (x : Nat) : g32 (b32 x) 0 = w32 x := rfl

theorem getD_skip {a r : Bytes} {n : Nat} (h : a.length = n) (k : Nat) : (a ++ r).getD (n + k) 0 = r.getD k 0 := by
  subst h
  simp [List.getD_eq_getElem?_getD, List.getElem?_append_right]

theorem g16_skip {a r : Bytes} {n : Nat} (h : a.length = n) (k : Nat) : g16 (a ++ r) (n + k) = g16 r k := by
  simp only [g16, getD_skip h, Nat.add_assoc]

theorem g32_skip {a r : Bytes} {n : Nat} (h : a.length = n) (k : Nat) : g32 (a ++ r) (n + k) = g32 r k := by
  simp only [g32, g16_skip h, Nat.add_assoc]

theorem g32_next (x : Nat) (r : Bytes) (k : Nat) : g32 (b32 x ++ r) (4 + k) = g32 r k := g32_skip rfl k

theorem b32_length (x : Nat) : (b32 x).length = 4 := rfl
theorem encShdr_length (h : Shdr) : (encShdr h).length = 40 := rfl
theorem encSym_length (k : Nat) (s : OSym) : (encSym k s).length = 16 := rfl
theorem encRel_length (r : RawRel) : (encRel r).length = 8 := rfl

theorem encHeader_length {c : Choice} (h : c.pad.length = 9) : (encHeader c).length = 52 := by
  simp [encHeader, b16, b32, h]

/-! ### reading -/

theorem rd_at {f : Bytes} {o : Nat} {b : Bytes} (hf : f.length < 2 ^ 31) (h : At f o b) {n : Nat} (hn : n = b.length) : rd f o n = .ok b := by
  subst hn
  obtain ⟨h1, h2⟩ := h
  have e : o % 2 ^ 32 = o := Nat.mod_eq_of_lt (by omega)
  simp only [rd, e]
  rw [if_pos h1, h2]

theorem At.trans {f d b : Bytes} {o p : Nat} (h1 : At f o d) (h2 : At d p b) : At f (o + p) b := by
  obtain ⟨a1, a2⟩ := h1
  obtain ⟨c1, c2⟩ := h2
  refine ⟨by omega, ?_⟩
  have e : (f.drop (o + p)).take b.length = (((f.drop o).take d.length).drop p).take b.length := by
    rw [List.drop_take, List.drop_drop, List.take_take, Nat.min_eq_left (by omega)]
  rw [e, a2, c2]

theorem shdr_fields (h : Shdr) : g32 (encShdr h) 0 = w32 h.name ∧ g32 (encShdr h) 4 = w32 h.type ∧ g32 (encShdr h) 8 = w32 h.flags ∧ g32 (encShdr h) 12 = w32 h.addr ∧
    g32 (encShdr h) 16 = w32 h.off ∧ g32 (encShdr h) 20 = w32 h.size ∧ g32 (encShdr h) 24 = w32 h.link ∧ g32 (encShdr h) 28 = w32 h.info ∧ g32 (encShdr h) 32 = w32 h.align ∧
    g32 (encShdr h) 36 = w32 h.entsize := by
  simp only [encShdr, List.append_assoc]
  refine ⟨g32_zero _ _, (g32_next _ _ 0).trans (g32_zero _ _), ((g32_next _ _ 4).trans (g32_next _ _ 0)).trans (g32_zero _ _), ?_, ?_, ?_, ?_, ?_, ?_, ?_⟩
  · rw [show 12 = 4 + (4 + (4 + 0)) from rfl]; simp only [g32_next, g32_zero]
  · rw [show 16 = 4 + (4 + (4 + (4 + 0))) from rfl]; simp only [g32_next, g32_zero]
  · rw [show 20 = 4 + (4 + (4 + (4 + (4 + 0)))) from rfl]; simp only [g32_next, g32_zero]
  · rw [show 24 = 4 + (4 + (4 + (4 + (4 + (4 + 0))))) from rfl]; simp only [g32_next, g32_zero]
  · rw [show 28 = 4 + (4 + (4 + (4 + (4 + (4 + (4 + 0)))))) from rfl]; simp only [g32_next, g32_zero]
  · rw [show 32 = 4 + (4 + (4 + (4 + (4 + (4 + (4 + (4 + 0))))))) from rfl]; simp only [g32_next, g32_zero]
  · rw [show 36 = 4 + (4 + (4 + (4 + (4 + (4 + (4 + (4 + (4 + 0)))))))) from rfl]; simp only [g32_next, g32_nil]

theorem shdrOf_enc {h : Shdr} (hf : h.Fits) : shdrOf (encShdr h) = if h.type = 0 then ⟨0, 0, 0, 0, 0, 0, 0, 0, 0, 0⟩ else h := by
  obtain ⟨f1, f2, f3, f4, f5, f6, f7, f8, f9, f10⟩ := hf
  obtain ⟨e1, e2, e3, e4, e5, e6, e7, e8, e9, e10⟩ := shdr_fields h
  have e : shdrOf (encShdr h) = if w32 h.type = 0 then ⟨0, 0, 0, 0, 0, 0, 0, 0, 0, 0⟩
      else ⟨w32 h.name, w32 h.type, w32 h.flags, w32 h.addr, w32 h.off, w32 h.size, w32 h.link, w32 h.info, w32 h.align, w32 h.entsize⟩ := by
    simp only [shdrOf, e1, e2, e3, e4, e5, e6, e7, e8, e9, e10]
  rw [e]
  simp only [w32_eq, f1, f2, f3, f4, f5, f6, f7, f8, f9, f10]

def norm (h : Shdr) : Shdr := if h.type = 0 then ⟨0, 0, 0, 0, 0, 0, 0, 0, 0, 0⟩ else h

theorem norm_type (h : Shdr) : (norm h).type = h.type := by
  unfold norm; split <;> simp_all

theorem norm_pos {h : Shdr} (hn : h.type ≠ 0) : norm h = h := by
  unfold norm; rw [if_neg hn]

theorem headers_ok {f : Bytes} (hf : f.length < 2 ^ 31) (base : Nat) : ∀ (l : List Shdr) (k : Nat),
    (∀ (i : Nat) (h : Shdr), l[i]? = some h → At f (base + 40 * (k + i)) (encShdr h) ∧ h.Fits) → headers f base l.length k = .ok (l.map norm)
  | [], _, _ => rfl
  | h :: l, k, H => by
    obtain ⟨h1, h2⟩ := H 0 h rfl
    have ih := headers_ok hf base l (k + 1) (fun i x hx => by
      have := H (i + 1) x hx
      rwa [show k + 1 + i = k + (i + 1) from by omega])
    rw [Nat.add_zero, Nat.mul_comm] at h1
    simp only [List.length_cons, headers]
    rw [rd_at hf h1 (encShdr_length h).symm]
    simp only [ih, shdrOf_enc h2, List.map_cons]
    rfl

theorem header_fields {c : Choice} (hp : c.pad.length = 9) :
    (encHeader c).take 4 = [0x7F, 0x45, 0x4C, 0x46] ∧ (encHeader c).getD 6 0 = 1 ∧ g16 (encHeader c) 40 = 52 ∧ g16 (encHeader c) 46 = 40 ∧ (encHeader c).getD 4 0 = 1 ∧
    (encHeader c).getD 5 0 = 1 ∧ g16 (encHeader c) 16 = 1 ∧ g16 (encHeader c) 18 = 3 ∧ g32 (encHeader c) 32 = w32 c.shoff ∧ g16 (encHeader c) 50 = w16 c.shstrndx ∧
    g16 (encHeader c) 48 = w16 c.hdrs.length := by
  have hp7 : ([0x7F, 0x45, 0x4C, 0x46, 1, 1, 1] ++ c.pad : Bytes).length = 16 := by simp [hp]
  have ee : encHeader c = ([0x7F, 0x45, 0x4C, 0x46, 1, 1, 1] ++ c.pad) ++ (b16 1 ++ (b16 3 ++ ((b32 c.version ++ b32 c.entry ++ b32 c.phoff) ++ (b32 c.shoff ++ (b32 c.flags ++ (b16 52 ++
      ((b16 c.phentsize ++ b16 c.phnum) ++ (b16 40 ++ (b16 c.hdrs.length ++ (b16 c.shstrndx ++ [])))))))))) := by
    simp only [encHeader, List.append_assoc, List.append_nil]
  have k1 : ∀ (r : Bytes) (k : Nat), g16 (([0x7F, 0x45, 0x4C, 0x46, 1, 1, 1] ++ c.pad) ++ r) (16 + k) = g16 r k := fun r k => g16_skip hp7 k
  have k1' : ∀ (r : Bytes) (k : Nat), g32 (([0x7F, 0x45, 0x4C, 0x46, 1, 1, 1] ++ c.pad) ++ r) (16 + k) = g32 r k := fun r k => g32_skip hp7 k
  have k2 : ∀ (x : Nat) (r : Bytes) (k : Nat), g16 (b16 x ++ r) (2 + k) = g16 r k := fun x r k => g16_skip rfl k
  have k2' : ∀ (x : Nat) (r : Bytes) (k : Nat), g32 (b16 x ++ r) (2 + k) = g32 r k := fun x r k => g32_skip rfl k
  have k3 : ∀ (x y z : Nat) (r : Bytes) (k : Nat), g16 ((b32 x ++ b32 y ++ b32 z) ++ r) (12 + k) = g16 r k := fun x y z r k => g16_skip rfl k
  have k3' : ∀ (x y z : Nat) (r : Bytes) (k : Nat), g32 ((b32 x ++ b32 y ++ b32 z) ++ r) (12 + k) = g32 r k := fun x y z r k => g32_skip rfl k
  have k4 : ∀ (x : Nat) (r : Bytes) (k : Nat), g16 (b32 x ++ r) (4 + k) = g16 r k := fun x r k => g16_skip rfl k
  have k5 : ∀ (x y : Nat) (r : Bytes) (k : Nat), g16 ((b16 x ++ b16 y) ++ r) (4 + k) = g16 r k := fun x y r k => g16_skip rfl k
  have c1 : w16 1 = 1 := by decide +kernel
  have c3 : w16 3 = 3 := by decide +kernel
  have c40 : w16 40 = 40 := by decide +kernel
  have c52 : w16 52 = 52 := by decide +kernel
  rw [ee]
  refine ⟨by simp, by simp, ?_, ?_, by simp, by simp, ?_, ?_, ?_, ?_, ?_⟩
  · exact (k1 _ (2 + (2 + (12 + (4 + (4 + 0)))))).trans (by rw [k2, k2, k3, k4, k4, g16_zero, c52])
  · exact (k1 _ (2 + (2 + (12 + (4 + (4 + (2 + (4 + 0)))))))).trans (by rw [k2, k2, k3, k4, k4, k2, k5, g16_zero, c40])
  · exact (k1 _ 0).trans (by rw [g16_zero, c1])
  · exact (k1 _ (2 + 0)).trans (by rw [k2, g16_zero, c3])
  · exact (k1' _ (2 + (2 + (12 + 0)))).trans (by rw [k2', k2', k3', g32_zero])
  · exact (k1 _ (2 + (2 + (12 + (4 + (4 + (2 + (4 + (2 + (2 + 0)))))))))).trans (by rw [k2, k2, k3, k4, k4, k2, k5, k2, k2, g16_zero])
  · exact (k1 _ (2 + (2 + (12 + (4 + (4 + (2 + (4 + (2 + 0))))))))).trans (by rw [k2, k2, k3, k4, k4, k2, k5, k2, g16_zero])

/-! ### contents -/

def rawSyms : List Nat → List OSym → List Sym
  | o :: os, s :: ss => ⟨o, s.value, s.info, s.shndx⟩ :: rawSyms os ss
  | _, _ => []

theorem symsOf_ok : ∀ (os : List Nat) (ss : List OSym), os.length = ss.length → (∀ s ∈ ss, s.Fits) → (∀ k ∈ os, k < 2 ^ 32) →
    symsOf ss.length (encSyms os ss) = rawSyms os ss
  | [], [], _, _, _ => rfl
  | [], _ :: _, h, _, _ => by simp at h
  | _ :: _, [], h, _, _ => by simp at h
  | o :: os, s :: ss, h, h1, h2 => by
    have ih := symsOf_ok os ss (by simpa using h) (fun x hx => h1 x (List.mem_cons_of_mem _ hx)) (fun x hx => h2 x (List.mem_cons_of_mem _ hx))
    obtain ⟨f1, f2, f3⟩ := h1 s List.mem_cons_self
    have f0 := h2 o List.mem_cons_self
    have e : symsOf (ss.length + 1) (encSym o s ++ encSyms os ss) = ⟨w32 o, w32 s.value, (UInt8.ofNat s.info).toNat, w16 s.shndx⟩ :: symsOf ss.length (encSyms os ss) := rfl
    simp only [List.length_cons, encSyms, rawSyms]
    rw [e, ih, w32_eq f0, w32_eq f1, w16_eq f3, UInt8.toNat_ofNat', Nat.mod_eq_of_lt f2]

theorem encSyms_length : ∀ (os : List Nat) (ss : List OSym), os.length = ss.length → (encSyms os ss).length = 16 * ss.length
  | [], [], _ => rfl
  | [], _ :: _, h => by simp at h
  | _ :: _, [], h => by simp at h
  | o :: os, s :: ss, h => by
    simp only [encSyms, List.length_append, encSym_length, List.length_cons]
    rw [encSyms_length os ss (by simpa using h)]
    omega

theorem relsOf_ok : ∀ (l : List RawRel), (∀ r ∈ l, RelFits r) → relsOf l.length (l.flatMap encRel) = l
  | [], _ => rfl
  | r :: l, h => by
    have ih := relsOf_ok l (fun x hx => h x (List.mem_cons_of_mem _ hx))
    obtain ⟨f1, f2, f3⟩ := h r List.mem_cons_self
    have e : relsOf (l.length + 1) (encRel r ++ l.flatMap encRel) =
      ⟨w32 r.off, w32 (r.sym * 256 + r.type) / 256, w32 (r.sym * 256 + r.type) % 256⟩ :: relsOf l.length (l.flatMap encRel) := rfl
    simp only [List.length_cons, List.flatMap_cons]
    rw [e, ih, w32_eq f1, w32_eq (by omega : r.sym * 256 + r.type < 2 ^ 32)]
    rw [show (r.sym * 256 + r.type) / 256 = r.sym from by omega, show (r.sym * 256 + r.type) % 256 = r.type from by omega]

theorem encRels_length : ∀ (l : List RawRel), (l.flatMap encRel).length = 8 * l.length
  | [] => rfl
  | r :: l => by
    simp only [List.flatMap_cons, List.length_append, encRel_length, List.length_cons, encRels_length l]
    omega

def cont (o : Object) (c : Choice) : Sct → Data
  | .syms => .syms (rawSyms c.nameOffs o.syms)
  | .strs t => .str t
  | .rels _ l => .rels l
  | _ => .none

theorem contents_ok {f : Bytes} {ofs : Nat} {o : Object} {c : Choice} {tab : Bytes} (E : Encodes f ofs o c) {h : Shdr} {t : Sct} {k : Nat} (hk : o.scts[k]? = some t)
    (D : Describes f ofs o c tab h t) : contents f ofs (norm h) = .ok (cont o c t) := by
  cases t with
  | null =>
    have D : h.type = 0 := D
    simp only [contents, norm_type, D, cont]
    simp
  | bits n a w x al d =>
    obtain ⟨D, -⟩ := D
    simp only [contents, norm_type, D, cont]
    simp
  | nobits n a w x al sz =>
    obtain ⟨D, -⟩ := D
    simp only [contents, norm_type, D, cont]
    simp
  | syms =>
    obtain ⟨d1, d2, d3, d4, d5, -⟩ := D
    obtain ⟨s1, s2, s3, s4⟩ := E.syms
    have hl := encSyms_length c.nameOffs o.syms s2
    have hpos : o.syms.length ≠ 0 := fun hc => s1 (List.eq_nil_of_length_eq_zero hc)
    have hn := E.nloc
    simp only [contents, norm_pos (show h.type ≠ 0 by omega), d1, if_true, d2, d3, d4]
    rw [show 16 * o.syms.length / 16 = o.syms.length from by omega, if_neg (by omega), rd_at E.short d5 (by omega)]
    simp only [cont, symsOf_ok c.nameOffs o.syms s2 s3 s4]
  | strs t =>
    obtain ⟨d1, d2, d3⟩ := D
    simp only [contents, norm_pos (show h.type ≠ 0 by omega), d1]
    rw [rd_at E.short d3 d2]
    simp [cont]
  | rels tg l =>
    obtain ⟨d1, d2, d3, d4, d5, d6, -⟩ := D
    have hpos : l.length ≠ 0 := fun hc => d5 (List.eq_nil_of_length_eq_zero hc)
    have hrd := rd_at E.short d6 (encRels_length l).symm
    have hz : ¬ (8 * l.length = 0 ∨ 8 ≠ 8) := by omega
    simp only [contents, norm_pos (show h.type ≠ 0 by omega), d1, d2, d3, show 8 * l.length / 8 = l.length from by omega, hrd, relsOf_ok l (E.rels k tg l hk), if_neg hz]
    simp [cont]

def both (o : Object) (c : Choice) : List Shdr → List Sct → List (Shdr × Data)
  | h :: hs, t :: ts => (norm h, cont o c t) :: both o c hs ts
  | _, _ => []

theorem both_get (o : Object) (c : Choice) : ∀ (hs : List Shdr) (ts : List Sct), hs.length = ts.length → ∀ (k : Nat) (t : Sct), ts[k]? = some t →
    ∃ h, hs[k]? = some h ∧ (both o c hs ts)[k]? = some (norm h, cont o c t)
  | [], [], _, k, t, h => by simp at h
  | [], _ :: _, h, _, _, _ => by simp at h
  | _ :: _, [], h, _, _, _ => by simp at h
  | h :: hs, t :: ts, hl, 0, x, hx => by
    simp only [List.getElem?_cons_zero, Option.some.injEq] at hx
    subst hx
    exact ⟨h, rfl, rfl⟩
  | h :: hs, t :: ts, hl, k + 1, x, hx => by
    obtain ⟨y, h1, h2⟩ := both_get o c hs ts (by simpa using hl) k x hx
    exact ⟨y, h1, h2⟩

theorem both_split (o : Object) (c : Choice) : ∀ (hs : List Shdr) (ts : List Sct) (k : Nat) (x : Shdr × Data), (both o c hs ts)[k]? = some x →
    ∃ h t, hs[k]? = some h ∧ ts[k]? = some t ∧ x = (norm h, cont o c t)
  | [], _, k, t, h => by simp [both] at h
  | _ :: _, [], _, _, h => by simp [both] at h
  | h :: hs, t :: ts, 0, x, hx => by
    simp only [both, List.getElem?_cons_zero, Option.some.injEq] at hx
    exact ⟨h, t, rfl, rfl, hx.symm⟩
  | h :: hs, t :: ts, k + 1, x, hx => both_split o c hs ts k x hx

theorem allContents_ok {f : Bytes} {ofs : Nat} (o : Object) (c : Choice) : ∀ (hs : List Shdr) (ts : List Sct), hs.length = ts.length →
    (∀ (k : Nat) (h : Shdr) (t : Sct), hs[k]? = some h → ts[k]? = some t → contents f ofs (norm h) = .ok (cont o c t)) →
    allContents f ofs (hs.map norm) = .ok (both o c hs ts)
  | [], [], _, _ => rfl
  | [], _ :: _, h, _ => by simp at h
  | _ :: _, [], h, _ => by simp at h
  | h :: hs, t :: ts, hl, H => by
    have ih := allContents_ok o c hs ts (by simpa using hl) (fun k x y hx hy => H (k + 1) x y hx hy)
    simp only [List.map_cons, allContents, H 0 h t rfl rfl, ih, both]

theorem supported_of {f : Bytes} {ofs : Nat} {o : Object} {c : Choice} {tab : Bytes} {h : Shdr} {t : Sct} (D : Describes f ofs o c tab h t) : supported h.type = true := by
  cases t <;> first | (have D : h.type = 0 := D; simp [supported, D]) | (obtain ⟨D, -⟩ := D; simp [supported, D])

theorem loadElf_ok {f : Bytes} {ofs : Nat} {o : Object} {c : Choice} {tab : Bytes} (E : Encodes f ofs o c) (h1 : o.scts[c.shstrndx]? = some (.strs tab))
    (h2 : ∀ (k : Nat) (h : Shdr) (t : Sct), c.hdrs[k]? = some h → o.scts[k]? = some t → Describes f ofs o c tab h t) :
    loadElf f ofs = .ok ⟨ofs, tab, both o c c.hdrs o.scts⟩ := by
  obtain ⟨f1, f2, f3, f4, f5, f6, f7, f8, f9, f10, f11⟩ := header_fields E.pad
  rw [w32_eq E.shoff.2] at f9
  rw [w16_eq E.strndx.2] at f10
  rw [w16_eq (by rw [E.count]; exact E.few)] at f11
  have hok : headerOk (encHeader c) = true := by
    simp only [headerOk, f1, f2, f3, f4, f5, f6, f7, f8, f9, f10]
    simp [E.shoff.1, E.strndx.1]
  obtain ⟨sh, hs1, -⟩ := both_get o c c.hdrs o.scts E.count c.shstrndx _ h1
  obtain ⟨hs2, hs3⟩ := E.table _ _ hs1
  obtain ⟨-, hs4, hs5⟩ := h2 _ _ _ hs1 h1
  obtain ⟨-, -, -, -, g1, g2, -⟩ := shdr_fields sh
  rw [w32_eq hs3.off] at g1
  rw [w32_eq hs3.size] at g2
  rw [Nat.mul_comm 40] at hs2
  have hh := headers_ok E.short (ofs + c.shoff) c.hdrs 0 (fun i h hi => by
    have := E.table i h hi
    rwa [Nat.zero_add])
  have hsup : (c.hdrs.map norm).any (fun h => !supported h.type) = false := by
    rw [List.any_eq_false]
    intro x hx
    obtain ⟨h, hm, rfl⟩ := List.mem_map.1 hx
    obtain ⟨k, hk⟩ := List.mem_iff_getElem?.1 hm
    have hlt : k < o.scts.length := by
      rw [← E.count]
      exact (List.getElem?_eq_some_iff.1 hk).1
    have hd := h2 k h _ hk (List.getElem?_eq_getElem hlt)
    simp [norm_type, supported_of hd]
  unfold loadElf
  rw [rd_at E.short E.header (encHeader_length E.pad).symm]
  simp only [hok, f9, f10, f11]
  rw [rd_at E.short hs2 (encShdr_length sh).symm]
  simp only [g1, g2]
  rw [rd_at E.short hs5 hs4]
  simp only [hh, hsup]
  obtain ⟨sc, sy, nl⟩ := o
  cases sc with
  | nil => exact absurd E.first (by simp)
  | cons t ts =>
    have ht : t = .null := by simpa using E.first
    subst ht
    cases hd : c.hdrs with
    | nil => exact absurd E.count (by simp [hd])
    | cons h hs =>
      have hl : hs.length = ts.length := by
        have := E.count
        rw [hd] at this
        simpa using this
      have hal := allContents_ok (f := f) (ofs := ofs) ⟨.null :: ts, sy, nl⟩ c hs ts hl (fun k x y hx hy => by
        refine contents_ok E (k := k + 1) hy (tab := tab) (h2 (k + 1) x y ?_ hy)
        rw [hd]
        exact hx)
      simp only [List.map_cons, hal, both, cont]
      simp

/-! ### names -/

theorem cstr_append : ∀ (n r : Bytes), (∀ b ∈ n, b ≠ 0) → cstr (n ++ 0 :: r) = some n
  | [], r, _ => by simp [cstr]
  | b :: n, r, h => by
    have hb := h b List.mem_cons_self
    simp only [List.cons_append, cstr]
    rw [if_neg hb, cstr_append n r (fun x hx => h x (List.mem_cons_of_mem _ hx))]
    rfl

theorem cstr_named {tab : Bytes} {k : Nat} {n : Name} (h : Named tab k n) : cstr (tab.drop k) = some n := by
  obtain ⟨h1, -, h3⟩ := h
  have e : tab.drop k = n ++ 0 :: (tab.drop k).drop (n ++ [0]).length := by
    conv => lhs; rw [← List.take_append_drop (n ++ [0]).length (tab.drop k), h3]
    simp
  rw [e]
  exact cstr_append _ _ h1

/-! ### relocations -/

def RelGood (k : Nat) (h : Shdr) : Sct → Prop
  | .rels tg _ => h.type = 9 ∧ h.info = tg ∧ h.link = k
  | _ => h.type ≠ 9

theorem relsFor_ok (o : Object) (c : Choice) (k j : Nat) : ∀ (hs : List Shdr) (ts : List Sct), hs.length = ts.length →
    (∀ (i : Nat) (h : Shdr) (t : Sct), hs[i]? = some h → ts[i]? = some t → RelGood k h t) →
    relsFor (both o c hs ts) (some k) j =
      .ok ((ts.findSome? (fun t => match t with | .rels k l => if k = j then some l else none | _ => none)).getD [])
  | [], [], _, _ => rfl
  | [], _ :: _, h, _ => by simp at h
  | _ :: _, [], h, _ => by simp at h
  | h :: hs, t :: ts, hl, H => by
    have ih := relsFor_ok o c k j hs ts (by simpa using hl) (fun i x y hx hy => H (i + 1) x y hx hy)
    have g := H 0 h t rfl rfl
    have skip : ∀ t, cont o c t = cont o c t → ¬ (h.type = 9 ∧ (norm h).info = j) → relsFor ((norm h, cont o c t) :: both o c hs ts) (some k) j = relsFor (both o c hs ts) (some k) j := by
      intro t _ hn
      simp only [relsFor, List.find?_cons]
      have : (decide ((norm h).type = 9) && decide ((norm h).info = j)) = false := by
        rw [norm_type]
        simpa using hn
      rw [this]
    cases t with
    | rels tg l =>
      obtain ⟨g1, g2, g3⟩ := g
      have hn : norm h = h := norm_pos (by omega)
      simp only [both]
      by_cases hj : tg = j
      · subst hj
        simp only [relsFor, List.find?_cons, hn, g1, g2, decide_true, Bool.and_self, cont, g3, if_true, List.findSome?_cons, Option.getD_some]
      · rw [skip _ rfl (by rw [hn, g2]; exact fun x => hj x.2), ih]
        simp [hj]
    | null => rw [both, skip _ rfl (fun x => g x.1), ih]; simp
    | bits => rw [both, skip _ rfl (fun x => g x.1), ih]; simp
    | nobits => rw [both, skip _ rfl (fun x => g x.1), ih]; simp
    | syms => rw [both, skip _ rfl (fun x => g x.1), ih]; simp
    | strs => rw [both, skip _ rfl (fun x => g x.1), ih]; simp

/-! ### sections -/

def secsFrom (o : Object) : List Sct → Nat → List (Option MSec)
  | [], _ => []
  | t :: ts, j => o.sec j t :: secsFrom o ts (j + 1)

theorem secsFrom_length (o : Object) : ∀ (ts : List Sct) (j : Nat), (secsFrom o ts j).length = ts.length
  | [], _ => rfl
  | t :: ts, j => by simp [secsFrom, secsFrom_length o ts]

theorem secsFrom_get (o : Object) : ∀ (ts : List Sct) (j i : Nat) (t : Sct), ts[i]? = some t → (secsFrom o ts j)[i]? = some (o.sec (j + i) t)
  | [], _, _, _, h => by simp at h
  | t :: ts, j, 0, x, h => by
    simp only [List.getElem?_cons_zero, Option.some.injEq] at h
    subst h
    rfl
  | t :: ts, j, i + 1, x, h => by
    have := secsFrom_get o ts (j + 1) i x h
    rw [show j + (i + 1) = j + 1 + i from by omega]
    exact this

theorem sections_ok {f : Bytes} {ofs : Nat} {o : Object} {c : Choice} {tab : Bytes} (hf : f.length < 2 ^ 31) (k : Nat)
    (hr : ∀ j, relsFor (both o c c.hdrs o.scts) (some k) j = .ok (o.relsFor j)) (h0 : tab.head? = some 0) : ∀ (hs : List Shdr) (ts : List Sct) (j : Nat), hs.length = ts.length →
    (∀ (i : Nat) (h : Shdr) (t : Sct), hs[i]? = some h → ts[i]? = some t → Describes f ofs o c tab h t ∧ (h.type ≠ 0 → ∃ n, Named tab h.name n)) →
    sections f ⟨ofs, tab, both o c c.hdrs o.scts⟩ (some k) (both o c hs ts) j = .ok (secsFrom o ts j)
  | [], [], _, _, _ => rfl
  | [], _ :: _, _, h, _ => by simp at h
  | _ :: _, [], _, h, _ => by simp at h
  | h :: hs, t :: ts, j, hl, H => by
    have ih := sections_ok (ofs := ofs) (tab := tab) hf k hr h0 hs ts (j + 1) (by simpa using hl) (fun i x y hx hy => H (i + 1) x y hx hy)
    obtain ⟨d, hn⟩ := H 0 h t rfl rfl
    have hname : ∃ n, cstr (tab.drop (norm h).name) = some n := by
      by_cases hz : h.type = 0
      · have : (norm h).name = 0 := by simp [norm, hz]
        rw [this]
        cases tab with
        | nil => simp at h0
        | cons b r =>
          have : b = 0 := by simpa using h0
          exact ⟨[], by simp [cstr, this]⟩
      · obtain ⟨n, hn⟩ := hn hz
        rw [norm_pos hz]
        exact ⟨n, cstr_named hn⟩
    obtain ⟨n, hcn⟩ := hname
    simp only [both, sections, hcn, hr, ih, secsFrom, norm_type]
    have other : h.type ≠ 1 → h.type ≠ 8 → ¬ (h.type = 1 ∨ h.type = 8) := fun a b x => x.elim a b
    cases t with
    | null =>
      have d : h.type = 0 := d
      rw [if_neg (other (by omega) (by omega))]
      rfl
    | syms => rw [if_neg (other (by have := d.1; omega) (by have := d.1; omega))]; rfl
    | strs => rw [if_neg (other (by have := d.1; omega) (by have := d.1; omega))]; rfl
    | rels => rw [if_neg (other (by have := d.1; omega) (by have := d.1; omega))]; rfl
    | bits n' a w x al dat =>
      obtain ⟨d1, d2, ⟨d3, d4, d5⟩, d6, d7, d8, d9⟩ := d
      have en : norm h = h := norm_pos (by omega)
      rw [en] at hcn ⊢
      have : n = n' := by
        have := cstr_named d2
        rw [hcn] at this
        exact Option.some.inj this
      subst this
      rw [if_pos (Or.inl d1), if_pos d1]
      have em : (ofs + h.off) % 2 ^ 32 = ofs + h.off := Nat.mod_eq_of_lt (by omega)
      rw [em, d7, d9]
      simp only [Object.sec, d3, d4, d5, d6, d1]
      cases a <;> cases w <;> cases x <;> rfl
    | nobits n' a w x al sz =>
      obtain ⟨d1, d2, ⟨d3, d4, d5⟩, d6, d7⟩ := d
      have en : norm h = h := norm_pos (by omega)
      rw [en] at hcn ⊢
      have : n = n' := by
        have := cstr_named d2
        rw [hcn] at this
        exact Option.some.inj this
      subst this
      rw [if_pos (Or.inr d1), if_neg (by omega)]
      simp only [Object.sec, d3, d4, d5, d6, d7, d1]
      cases a <;> cases w <;> cases x <;> rfl

/-! ### symbols -/

theorem findSyms_ok : ∀ (l : List (Shdr × Data)) (k i : Nat) (h : Shdr) (s : List Sym), l[k]? = some (h, .syms s) →
    (∀ j, j < k → ∀ x, l[j]? = some x → ∀ s, x.2 ≠ .syms s) → findSyms l i = some (i + k, h, s)
  | [], _, _, _, _, h, _ => by simp at h
  | x :: l, 0, i, h, s, e, _ => by
    simp only [List.getElem?_cons_zero, Option.some.injEq] at e
    subst e
    rfl
  | (x, d) :: l, k + 1, i, h, s, e, H => by
    have ih := findSyms_ok l k (i + 1) h s e (fun j hj y hy => H (j + 1) (by omega) y hy)
    have hd := H 0 (by omega) (x, d) rfl
    rw [show i + (k + 1) = i + 1 + k from by omega, ← ih]
    cases d with
    | syms s' => exact absurd rfl (hd s')
    | none => rfl
    | str => rfl
    | rels => rfl

theorem rawSyms_get : ∀ (os : List Nat) (ss : List OSym) (i : Nat) (x : Sym), (rawSyms os ss)[i]? = some x →
    ∃ k s, os[i]? = some k ∧ ss[i]? = some s ∧ x = ⟨k, s.value, s.info, s.shndx⟩
  | [], _, _, _, h => by simp [rawSyms] at h
  | _ :: _, [], _, _, h => by simp [rawSyms] at h
  | o :: os, s :: ss, 0, x, h => by
    simp only [rawSyms, List.getElem?_cons_zero, Option.some.injEq] at h
    exact ⟨o, s, rfl, rfl, h.symm⟩
  | o :: os, s :: ss, i + 1, x, h => rawSyms_get os ss i x h

theorem rawSyms_length : ∀ (os : List Nat) (ss : List OSym), os.length = ss.length → (rawSyms os ss).length = ss.length
  | [], [], _ => rfl
  | [], _ :: _, h => by simp at h
  | _ :: _, [], h => by simp at h
  | o :: os, s :: ss, h => by simp [rawSyms, rawSyms_length os ss (by simpa using h)]

/-- reading an object -/
theorem loadObj_ok {f : Bytes} {ofs : Nat} {o : Object} {c : Choice} (E : Encodes f ofs o c) : ∃ m, loadObj f ofs = .ok m ∧ Reads m o := by
  obtain ⟨tab, t1, t2, t3, t4⟩ := E.each
  obtain ⟨k, k1, k2⟩ := E.one
  obtain ⟨h, hk1, hk2⟩ := both_get o c c.hdrs o.scts E.count k _ k1
  obtain ⟨d1, d2, d3, d4, d5, t, d6, d7⟩ := t4 k h _ hk1 k1
  have en : norm h = h := norm_pos (by omega)
  rw [en] at hk2
  have hfind := findSyms_ok (both o c c.hdrs o.scts) k 0 h _ hk2 (fun j hj x hx s hs => by
    obtain ⟨y, z, e1, e2, e3⟩ := both_split o c _ _ _ _ hx
    subst e3
    cases z with
    | syms =>
      have := k2 j e2
      omega
    | _ => exact absurd hs (by simp [cont]))
  rw [Nat.zero_add] at hfind
  obtain ⟨hl, -, hl2⟩ := both_get o c c.hdrs o.scts E.count h.link _ d6
  have hstr : strings ⟨ofs, tab, both o c c.hdrs o.scts⟩ h = .ok t := by
    simp only [strings, hl2, cont]
  have hcs : ∀ s ∈ rawSyms c.nameOffs o.syms, s.name ≠ 0 → (cstr (t.drop s.name)).isSome := by
    intro s hs hn
    obtain ⟨i, hi⟩ := List.mem_iff_getElem?.1 hs
    obtain ⟨a, b, e1, e2, e3⟩ := rawSyms_get _ _ _ _ hi
    subst e3
    rcases d7 i b a e2 e1 with ⟨-, x⟩ | ⟨-, -, x⟩
    · exact absurd x hn
    · rw [show (cstr (t.drop a)) = some b.name from cstr_named x]
      rfl
  have hany : ((rawSyms c.nameOffs o.syms).drop h.info).any (fun s => s.name ≠ 0 && (cstr (t.drop s.name)).isNone) = false := by
    rw [List.any_eq_false]
    intro s hs
    have := hcs s (List.mem_of_mem_drop hs)
    by_cases hz : s.name = 0
    · simp [hz]
    · have := this hz
      rw [Option.isSome_iff_ne_none] at this
      simpa using fun _ => this
  have hrel : ∀ j, relsFor (both o c c.hdrs o.scts) (some k) j = .ok (o.relsFor j) := fun j =>
    relsFor_ok o c k j c.hdrs o.scts E.count (fun i x y hx hy => by
      have D := t4 i x y hx hy
      cases y with
      | rels tg l =>
        obtain ⟨e1, e2, e3, e4, e5, e6, e7⟩ := D
        exact ⟨e1, e4, k2 _ e7⟩
      | null =>
        have D : x.type = 0 := D
        show x.type ≠ 9
        omega
      | bits => have := D.1; show x.type ≠ 9; omega
      | nobits => have := D.1; show x.type ≠ 9; omega
      | syms => have := D.1; show x.type ≠ 9; omega
      | strs => have := D.1; show x.type ≠ 9; omega)
  have hsec := sections_ok (f := f) (ofs := ofs) E.short k hrel t2 c.hdrs o.scts 0 E.count (fun i x y hx hy => ⟨t4 i x y hx hy, t3 x (List.mem_of_getElem? hx)⟩)
  have hmod : loadObj f ofs = .ok ⟨secsFrom o o.scts 0, rawSyms c.nameOffs o.syms, h.info, fun p => (cstr (t.drop p)).getD []⟩ := by
    unfold loadObj
    rw [loadElf_ok E t1 t4]
    simp only [module, hfind, hstr, hany, hsec]
    simp
  refine ⟨_, hmod, ?_⟩
  obtain ⟨s1, s2, s3, s4⟩ := E.syms
  constructor
  · exact secsFrom_length o _ _
  · intro j x hx
    have := secsFrom_get o o.scts 0 j x hx
    rwa [Nat.zero_add] at this
  · exact d4
  · exact rawSyms_length _ _ s2
  · intro i s hs
    have hlt : i < (rawSyms c.nameOffs o.syms).length := by
      rw [rawSyms_length _ _ s2]
      exact (List.getElem?_eq_some_iff.1 hs).1
    have hg := List.getElem?_eq_getElem hlt
    obtain ⟨a, b, e1, e2, e3⟩ := rawSyms_get _ _ _ _ hg
    rw [hs] at e2
    obtain rfl := Option.some.inj e2
    refine ⟨_, hg, ?_⟩
    rw [e3]
    refine ⟨rfl, rfl, rfl, ?_, ?_⟩
    · intro hn
      rcases d7 i s a hs e1 with ⟨-, x⟩ | ⟨-, x, -⟩
      · exact x
      · exact absurd hn x
    · intro hn
      rcases d7 i s a hs e1 with ⟨x, -⟩ | ⟨x, -, y⟩
      · exact absurd x hn
      · refine ⟨x, ?_⟩
        show (cstr (t.drop a)).getD [] = s.name
        rw [cstr_named y]
        rfl

end Smlr.Objf
