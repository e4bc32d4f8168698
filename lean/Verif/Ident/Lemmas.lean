import Verif.Ident.Spec
import Verif.Macro.Lemmas
set_option autoImplicit false
namespace Smlr.Ident
open Smlr.Macro (Str NoNul Tab Err rd wr wrs strEq move rd_at wr_at wrs_at strEq_ok move_ok split_at)

def enc1 (n : Str) : Str := n ++ [0, UInt8.ofNat (n.length + 1)]

def enc : List Str → Str
  | [] => []
  | e :: es => enc1 e ++ enc es

theorem enc_append (a b : List Str) : enc (a ++ b) = enc a ++ enc b := by
  induction a with
  | nil => rfl
  | cons e a ih => simp [enc, ih]

theorem enc1_len (n : Str) : (enc1 n).length = size n := by simp [enc1, size]

theorem enc_len (es : List Str) : (enc es).length = total es := by
  induction es with
  | nil => rfl
  | cons e es ih => simp only [enc, List.length_append, enc1_len, ih, total, List.map_cons, List.sum_cons]

def NameOk (n : Str) : Prop := NoNul n ∧ n.length ≤ 126

structure Holds (t : Tab) (es : List Str) : Prop where
  cap : t.mem.length = maxLen
  len : t.len = total es
  pre : ∃ junk, t.mem = enc es ++ junk
  ok : ∀ e ∈ es, NameOk e
  nodup : es.Nodup

theorem ofNat_toNat (n : Nat) (h : n ≤ 127) : (UInt8.ofNat n).toNat = n := by
  rw [UInt8.toNat_ofNat']; exact Nat.mod_eq_of_lt (by omega)

theorem snoc_cases {α : Type} (l : List α) : l = [] ∨ ∃ a x, l = a ++ [x] := by
  by_cases h : l = []
  · exact Or.inl h
  · exact Or.inr ⟨_, _, (List.dropLast_concat_getLast h).symm⟩

theorem strEq_entry (t : Tab) (p q : Str) (e : Str) (he : NoNul e) (h : t.mem = p ++ (enc1 e ++ q)) (name : Str) (hn : NoNul name) :
    strEq t p.length name = .ok (decide (e = name)) :=
  strEq_ok t p e (UInt8.ofNat (e.length + 1) :: q) (by rw [h]; simp [enc1]) _ rfl he name hn

theorem offset_append (a b : List Str) (n : Str) (h : n ∉ a) : offset (a ++ b) n = total a + offset b n := by
  induction a with
  | nil => simp [total]
  | cons e a ih =>
    simp only [List.mem_cons, not_or] at h
    simp only [List.cons_append, offset, total, List.map_cons, List.sum_cons]
    rw [if_neg (fun hh => h.1 hh.symm), ih h.2, total]; omega

theorem offset_left (a b : List Str) (n : Str) (h : n ∈ a) : offset (a ++ b) n = offset a n := by
  induction a with
  | nil => simp at h
  | cons e a ih =>
    simp only [List.cons_append, offset]
    by_cases he : e = n
    · rw [if_pos he, if_pos he]
    · rw [if_neg he, if_neg he, ih ((List.mem_cons.1 h).resolve_left (fun hh => he hh.symm))]

theorem offset_lt (a : List Str) (n : Str) (h : n ∈ a) : offset a n + size n ≤ total a := by
  induction a with
  | nil => simp at h
  | cons e a ih =>
    simp only [offset, total, List.map_cons, List.sum_cons]
    by_cases he : e = n
    · rw [if_pos he, he]; omega
    · rw [if_neg he]
      have := ih ((List.mem_cons.1 h).resolve_left (fun hh => he hh.symm))
      simp only [total] at this; omega

theorem split_name {a : List Str} {n : Str} (h : n ∈ a) : ∃ x y, a = x ++ n :: y ∧ n ∉ x := by
  induction a with
  | nil => simp at h
  | cons e a ih =>
    by_cases he : e = n
    · exact ⟨[], a, by rw [he]; rfl, by simp⟩
    · obtain ⟨x, y, h1, h2⟩ := ih ((List.mem_cons.1 h).resolve_left (fun hh => he hh.symm))
      exact ⟨e :: x, y, by rw [h1]; rfl, by simp [h2, Ne.symm he]⟩

theorem total_append (a b : List Str) : total (a ++ b) = total a + total b := by simp [total]

theorem find_ok (t : Tab) (name : Str) (hn : NoNul name) (k : Nat) : ∀ (es : List Str), es.length = k → (∀ e ∈ es, NameOk e) → es.Nodup → ∀ (q : Str), t.mem = enc es ++ q →
    find t name (total es) = .ok (if name ∈ es then some (offset es name) else none) := by
  induction k with
  | zero =>
    intro es hl _ _ q _
    have : es = [] := by simpa using hl
    subst this
    unfold find
    rw [dif_pos (by rfl)]
    simp
  | succ k ih =>
    intro es hl hok hnd q h
    rcases snoc_cases es with rfl | ⟨es, e, rfl⟩
    · simp at hl
    · have heok := hok e (by simp)
      have ht : total (es ++ [e]) = total es + size e := by rw [total_append]; simp [total]
      have hmem : t.mem = enc es ++ (enc1 e ++ q) := by rw [h, enc_append]; simp [enc]
      have hne : e ∉ es := by
        rw [List.nodup_append] at hnd
        intro hh; exact hnd.2.2 e hh e (by simp) rfl
      rw [ht]
      unfold find
      have hsz : size e = e.length + 2 := rfl
      rw [dif_neg (by omega)]
      rw [rd_at t (enc es ++ (e ++ [0])) (UInt8.ofNat (e.length + 1)) q (by rw [hmem]; simp [enc1]) _ (by rw [List.length_append, enc_len]; simp; omega)]
      simp only
      rw [ofNat_toNat _ (by have := heok.2; omega), if_neg (by omega)]
      rw [show total es + size e - (1 + (e.length + 1)) = (enc es).length by rw [enc_len]; omega]
      rw [strEq_entry t (enc es) q e heok.1 hmem name hn]
      by_cases hc : e = name
      · subst hc
        simp only [decide_true]
        rw [if_pos (by simp), offset_append es [e] e hne, enc_len]
        simp [offset]
      · simp only [hc, decide_false]
        rw [enc_len, ih es (by simpa using hl) (fun x hx => hok x (by simp [hx])) (List.nodup_append.1 hnd).1 (enc1 e ++ q) hmem]
        by_cases hm : name ∈ es
        · rw [if_pos hm, if_pos (by simp [hm]), offset_left es [e] name hm]
        · rw [if_neg hm, if_neg (by simp [hm, Ne.symm hc])]

theorem add_ok (t : Tab) (es : List Str) (h : Holds t es) (name : Str) (hn : NoNul name) :
    (name ∈ es → add t name = .ok (t, offset es name)) ∧
    (name ∉ es → name.length ≤ 126 → total es + size name ≤ maxLen → ∃ t', add t name = .ok (t', total es) ∧ Holds t' (es ++ [name])) ∧
    (name ∉ es → ¬ (name.length ≤ 126 ∧ total es + size name ≤ maxLen) → ∃ e, add t name = .error e ∧ (e = .nameTooLong ∨ e = .full)) := by
  obtain ⟨junk, hj⟩ := h.pre
  have hf := find_ok t name hn es.length es rfl h.ok h.nodup junk hj
  have hcap := h.cap
  have hlen := h.len
  rw [← hlen] at hf
  unfold add
  rw [hf]
  refine ⟨fun hm => by rw [if_pos hm], fun hm h1 h2 => ?_, fun hm hne => ?_⟩
  · rw [if_neg hm]
    simp only
    unfold size at h2
    rw [if_neg (by omega), if_neg (by omega)]
    obtain ⟨a, b, hab, ha⟩ := split_at junk (name.length + 1) (by
      have := congrArg List.length hj
      rw [List.length_append, enc_len] at this; omega)
    have hb : b.length ≠ 0 := by
      have := congrArg List.length hj
      rw [List.length_append, enc_len, hab, List.length_append] at this; omega
    cases b with
    | nil => simp at hb
    | cons y b =>
      have hw := wrs_at (name ++ [0]) t (enc es) a (y :: b) (by rw [hj, hab]) (by simp [ha])
      rw [show t.len = (enc es).length by rw [enc_len, hlen]]
      rw [hw]
      simp only
      rw [wr_at _ (enc es ++ (name ++ [0])) y b (by simp) _ (by rw [List.length_append, enc_len, ← hlen]; simp)]
      simp only
      refine ⟨_, by rw [enc_len], ⟨?_, ?_, ⟨b, ?_⟩, ?_, ?_⟩⟩
      · simp only
        rw [← hcap, hj, hab]; simp [ha]; omega
      · simp only
        rw [total_append, hlen]; simp [total, size]; omega
      · rw [enc_append]; simp [enc, enc1]
      · intro e he
        rcases List.mem_append.1 he with he | he
        · exact h.ok e he
        · have : e = name := by simpa using he
          subst this; exact ⟨hn, h1⟩
      · rw [List.nodup_append]
        refine ⟨h.nodup, by simp, ?_⟩
        intro u hu v hv
        have : v = name := by simpa using hv
        subst this
        intro huv; subst huv; exact hm hu
  · rw [if_neg hm]
    simp only
    unfold size at hne
    by_cases h1 : name.length ≥ 127
    · rw [if_pos h1]; exact ⟨_, rfl, Or.inl rfl⟩
    · rw [if_neg h1, if_pos (by omega)]; exact ⟨_, rfl, Or.inr rfl⟩

/-- spelling at a handle -/
theorem denotes_at (t : Tab) (p q : Str) (n : Str) (h : t.mem = p ++ (enc1 n ++ q)) : Denotes t p.length n := by
  intro i hi
  unfold rd
  rw [h, List.getElem?_append_right (by omega), Nat.add_sub_cancel_left]
  have : enc1 n ++ q = (n ++ [0]) ++ (UInt8.ofNat (n.length + 1) :: q) := by simp [enc1]
  rw [this, List.getElem?_append_left (by simp; omega)]
  have hlt : i < (n ++ [(0 : UInt8)]).length := by simp; omega
  rw [List.getElem?_eq_getElem hlt]
  rfl

theorem denotes (t : Tab) (es : List Str) (h : Holds t es) (n : Str) (hn : n ∈ es) : Denotes t (offset es n) n := by
  obtain ⟨junk, hj⟩ := h.pre
  obtain ⟨x, y, hxy, hx⟩ := split_name hn
  have := denotes_at t (enc x) (enc y ++ junk) n (by rw [hj, hxy, enc_append]; simp [enc])
  rw [hxy, offset_append x _ n hx]
  simp only [offset, if_true, Nat.add_zero]
  rw [← enc_len]; exact this

theorem strEq_handle (t : Tab) (es : List Str) (h : Holds t es) (n : Str) (hn : n ∈ es) (name : Str) (hnn : NoNul name) :
    strEq t (offset es n) name = .ok (decide (n = name)) := by
  obtain ⟨junk, hj⟩ := h.pre
  obtain ⟨x, y, hxy, hx⟩ := split_name hn
  have := strEq_entry t (enc x) (enc y ++ junk) n (h.ok n hn).1 (by rw [hj, hxy, enc_append]; simp [enc]) name hnn
  rw [hxy, offset_append x _ n hx]
  simp only [offset, if_true, Nat.add_zero]
  rw [← enc_len]; exact this

/-! ### leaving a block -/

theorem takeWhile_name (n : Str) (hn : NoNul n) (q : Str) : (n ++ 0 :: q).takeWhile (· ≠ 0) = n := by
  induction n with
  | nil => simp
  | cons c n ih =>
    have hc := hn c (by simp)
    rw [List.cons_append, List.takeWhile_cons_of_pos (by simpa using hc), ih (fun d hd => hn d (by simp [hd]))]

theorem strlen_ok (t : Tab) (p q : Str) (n : Str) (hn : NoNul n) (h : t.mem = p ++ (enc1 n ++ q)) : strlen t p.length = .ok n.length := by
  unfold strlen
  have e : t.mem.drop p.length = n ++ 0 :: (UInt8.ofNat (n.length + 1) :: q) := by rw [h, List.drop_left]; simp [enc1]
  rw [e, takeWhile_name n hn]
  simp only
  rw [if_pos (by rw [h]; simp [enc1])]

/-- moving an entry down over garbage and other entries -/
theorem move_down (t : Tab) (p a e b : Str) (h : t.mem = p ++ (a ++ (e ++ b))) :
    ∃ g, move t p.length (p.length + a.length) e.length = .ok { t with mem := p ++ (e ++ (g ++ b)) } ∧ g.length = a.length := by
  have hl : t.mem.length = p.length + a.length + e.length + b.length := by rw [h]; simp; omega
  have htk : t.mem.take p.length = p := by rw [h]; simp
  have hsl : (t.mem.drop (p.length + a.length)).take e.length = e := by
    rw [h, ← List.append_assoc, ← List.length_append, List.drop_left]; simp
  obtain ⟨g, hg, hgl⟩ : ∃ g, t.mem.drop (p.length + e.length) = g ++ b ∧ g.length = a.length := by
    refine ⟨((a ++ e).drop e.length), ?_, by simp⟩
    rw [h, ← List.append_assoc a, ← List.drop_drop, List.drop_left, List.drop_append_of_le_length (by simp)]
  refine ⟨g, ?_, hgl⟩
  unfold move
  rw [if_pos (by omega), htk, hsl, hg]
  simp

/-- the labels still to be handled, `pos` being the offset of the first of the entries `S` -/
inductive Pend (base : List Str) : List Lab → List Str → List Str → Nat → Prop
  | nil (S pos) : Pend base [] [] S pos
  | low (l ls n ns S pos) : n ∈ base → l.h = offset base n → Pend base ls ns S pos → Pend base (l :: ls) (n :: ns) S pos
  | high (l ls n ns A B pos) : n ∉ base → l.h = pos + total A → Pend base ls ns B (pos + total A + size n) →
      Pend base (l :: ls) (n :: ns) (A ++ n :: B) pos

theorem undoLoop_ok (base : List Str) {ls : List Lab} {ns S : List Str} {pos : Nat} (hp : Pend base ls ns S pos) :
    ∀ (t : Tab) (done : List Str) (junk q : Str), (∀ n ∈ S, NameOk n) → (∀ n ∈ ns, n ∉ done) → ns.Nodup →
    t.mem = enc (base ++ done) ++ (junk ++ (enc S ++ q)) → t.len = total (base ++ done) → pos = (enc (base ++ done)).length + junk.length →
    ∃ t' ls' j, undoLoop (total base) t ls = .ok (t', ls') ∧
      t'.mem = enc (base ++ (done ++ ns.filter fun n => n ∉ base)) ++ j ∧ t'.mem.length = t.mem.length ∧
      t'.len = total (base ++ (done ++ ns.filter fun n => n ∉ base)) ∧
      ls'.map (·.h) = ns.map (offset (base ++ (done ++ ns.filter fun n => n ∉ base))) ∧
      ls'.map (·.num) = ls.map (·.num) ∧ ls'.map (·.stat) = ls.map (·.stat) := by
  induction hp with
  | nil S pos =>
    intro t done junk q _ _ _ hm hl _
    exact ⟨t, [], junk ++ (enc S ++ q), rfl, by simpa using hm, rfl, by simpa using hl, rfl, rfl, rfl⟩
  | low l ls n ns S pos hb hh _ ih =>
    intro t done junk q hS hd hnd hm hl hpos
    rw [List.nodup_cons] at hnd
    obtain ⟨t', ls', j, h1, h2, h3, h4, h5, h6, h7⟩ := ih t done junk q hS (fun x hx => hd x (by simp [hx])) hnd.2 hm hl hpos
    have hlt := offset_lt base n hb
    have hf : (n :: ns).filter (fun n => n ∉ base) = ns.filter fun n => n ∉ base := by
      rw [List.filter_cons_of_neg (by simpa using hb)]
    refine ⟨t', l :: ls', j, ?_, ?_, h3, ?_, ?_, ?_, ?_⟩
    · simp only [undoLoop]
      rw [if_neg (by rw [hh]; unfold size at hlt; omega), h1]
    · rw [hf]; exact h2
    · rw [hf]; exact h4
    · rw [hf, List.map_cons, List.map_cons, h5, hh, offset_left base _ n hb]
    · rw [List.map_cons, List.map_cons, h6]
    · rw [List.map_cons, List.map_cons, h7]
  | high l ls n ns A B pos hb hh _ ih =>
    intro t done junk q hS hd hnd hm hl hpos
    rw [List.nodup_cons] at hnd
    have hnok := hS n (by simp)
    have hm' : t.mem = enc (base ++ done) ++ ((junk ++ enc A) ++ (enc1 n ++ (enc B ++ q))) := by
      rw [hm, enc_append A]; simp [enc]
    have hsl := strlen_ok t (enc (base ++ done) ++ (junk ++ enc A)) (enc B ++ q) n hnok.1 (by rw [hm']; simp)
    have hhp : l.h = (enc (base ++ done) ++ (junk ++ enc A)).length := by
      rw [hh, hpos]; simp [enc_len]; omega
    obtain ⟨g, hg, hgl⟩ := move_down t (enc (base ++ done)) (junk ++ enc A) (enc1 n) (enc B ++ q) hm'
    have hnd' : n ∉ done := hd n (by simp)
    have hf : done ++ (n :: ns).filter (fun n => n ∉ base) = (done ++ [n]) ++ ns.filter fun n => n ∉ base := by
      rw [List.filter_cons_of_pos (by simpa using hb)]; simp
    have he1 : enc (base ++ (done ++ [n])) = enc (base ++ done) ++ enc1 n := by
      rw [← List.append_assoc, enc_append]; simp [enc]
    have ht1 : total (base ++ (done ++ [n])) = total (base ++ done) + size n := by
      rw [← List.append_assoc, total_append]; simp [total]
    obtain ⟨t', ls', j, h1, h2, h3, h4, h5, h6, h7⟩ := ih { t with mem := enc (base ++ done) ++ (enc1 n ++ (g ++ (enc B ++ q))), len := t.len + (n.length + 2) }
      (done ++ [n]) g q (fun x hx => hS x (by simp [hx])) (fun x hx hxd => by
        rcases List.mem_append.1 hxd with h | h
        · exact hd x (by simp [hx]) h
        · have : x = n := by simpa using h
          subst this; exact hnd.1 hx) hnd.2
      (by rw [he1]; simp) (by rw [ht1, hl]; rfl) (by
        rw [he1, List.length_append, enc1_len, hgl, List.length_append, enc_len A, hpos]; omega)
    have hpos2 : total base ≤ l.h := by
      rw [hhp, List.length_append, enc_len, total_append]; omega
    refine ⟨t', { l with h := t.len } :: ls', j, ?_, ?_, ?_, ?_, ?_, ?_, ?_⟩
    · simp only [undoLoop]
      rw [if_pos hpos2, hhp, hsl]
      simp only
      have e2 : t.len = (enc (base ++ done)).length := by rw [hl, enc_len]
      rw [List.length_append, e2, show n.length + 2 = (enc1 n).length by rw [enc1_len]; rfl, hg]
      simp only
      rw [e2, show n.length + 2 = (enc1 n).length by rw [enc1_len]; rfl] at h1
      rw [h1]
    · rw [hf]; exact h2
    · rw [h3]; simp only
      rw [hm']; simp [hgl]; omega
    · rw [hf]; exact h4
    · rw [hf, List.map_cons, List.map_cons, h5]
      congr 1
      simp only
      have : n ∉ base ++ done := by simp [hb, hnd']
      rw [hl, List.append_assoc, ← List.append_assoc base, offset_append (base ++ done) _ n this]
      simp [offset]
    · rw [List.map_cons, List.map_cons, h6]
    · rw [List.map_cons, List.map_cons, h7]

end Smlr.Ident
