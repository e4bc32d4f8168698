import Verif.Ident.Lemmas
set_option autoImplicit false
namespace Smlr.Ident
open Smlr.Macro (Str NoNul Tab Err rd wr wrs strEq move)

def statOf (l : ALab) : Nat := (if l.defd then 1 else 0) + (if l.used then 2 else 0)

structure Rep (m : M) (a : A) : Prop where
  holds : Holds m.s.tab a.ids
  hh : m.s.labs.map (·.h) = a.labNames.map (offset a.ids)
  hnum : m.s.labs.map (·.num) = a.labs.map (·.num)
  hstat : m.s.labs.map (·.stat) = a.labs.map statOf
  hcnt : m.s.cnt = a.cnt
  sub : ∀ n ∈ a.labNames, n ∈ a.ids
  nodup : a.labNames.Nodup
  marks : m.marks = a.marks.map fun k => total (a.ids.take k)
  mle : ∀ k ∈ a.marks, k ≤ a.ids.length
  msort : a.marks.Pairwise (· ≥ ·)

theorem rep_init : Rep init A.init := by
  refine ⟨⟨by simp [init], rfl, ⟨List.replicate maxLen 0, rfl⟩, by simp [A.init], by simp [A.init]⟩, rfl, rfl, rfl, rfl, ?_, ?_, rfl, ?_, ?_⟩
  · simp [A.init, A.labNames]
  · simp [A.init, A.labNames]
  · simp [A.init]
  · simp [A.init]

/-- outcome of a step: success and `P`, or an error that is a diagnosis -/
def Good {α : Type} (r : Except LErr α) (P : α → Prop) : Prop :=
  match r with
  | .ok x => P x
  | .error e => e ≠ .tab .oob

theorem take_snoc (l : List Str) (n : Str) (k : Nat) (h : k ≤ l.length) : (l ++ [n]).take k = l.take k := List.take_append_of_le_length h

theorem mem_take_sub {l : List Str} {n : Str} {k : Nat} (h : n ∈ l.take k) : n ∈ l := List.mem_of_mem_take h

/-- growing the table by a new name -/
theorem rep_grow (m : M) (a : A) (h : Rep m a) (t : Tab) (n : Str) (ht : Holds t (a.ids ++ [n])) :
    Rep { m with s := { m.s with tab := t } } { a with ids := a.ids ++ [n] } := by
  refine ⟨ht, ?_, h.hnum, h.hstat, h.hcnt, fun x hx => List.mem_append_left _ (h.sub x hx), h.nodup, ?_, ?_, h.msort⟩
  · show m.s.labs.map (·.h) = a.labNames.map (offset (a.ids ++ [n]))
    rw [h.hh]
    exact List.map_congr_left fun x hx => (offset_left _ _ _ (h.sub x hx)).symm
  · show m.marks = a.marks.map fun k => total ((a.ids ++ [n]).take k)
    rw [h.marks]
    exact List.map_congr_left fun k hk => by rw [take_snoc _ _ _ (h.mle k hk)]
  · intro k hk
    have := h.mle k hk
    simp; omega

theorem step_add (m : M) (a : A) (h : Rep m a) (n : Str) (hn : NoNul n) :
    Good (step m (.add n)) fun x => Rep x.1 (a.addId n) ∧ x.2 = some (offset (a.addId n).ids n) ∧ (n ∈ a.ids → x.1 = m) := by
  have hadd := add_ok _ _ h.holds n hn
  unfold step
  simp only [A.addId]
  by_cases hm : n ∈ a.ids
  · rw [hadd.1 hm, if_pos hm]
    exact ⟨h, rfl, fun _ => rfl⟩
  · rw [if_neg hm]
    by_cases hf : n.length ≤ 126 ∧ total a.ids + size n ≤ maxLen
    · obtain ⟨t, h1, h2⟩ := hadd.2.1 hm hf.1 hf.2
      rw [h1]
      refine ⟨rep_grow m a h t n h2, ?_, fun hh => absurd hh hm⟩
      rw [offset_append _ _ _ hm]; simp [offset]
    · obtain ⟨e, h1, h2⟩ := hadd.2.2 hm hf
      rw [h1]
      rcases h2 with rfl | rfl <;> simp [Good]

/-! labels -/

theorem findLab_ok (t : Tab) (es : List Str) (ht : Holds t es) (name : Str) (hn : NoNul name) : ∀ (ls : List Lab) (ns : List Str),
    ls.map (·.h) = ns.map (offset es) → (∀ n ∈ ns, n ∈ es) →
    (name ∉ ns → findLab t name ls = .ok none) ∧
    (name ∈ ns → ∃ a l b na nb, findLab t name ls = .ok (some (a, l, b)) ∧ ls = a ++ l :: b ∧ ns = na ++ name :: nb ∧ na.length = a.length ∧ name ∉ na)
  | [], [], _, _ => ⟨fun _ => rfl, fun h => by simp at h⟩
  | [], n :: ns, h, _ => by simp at h
  | l :: ls, [], h, _ => by simp at h
  | l :: ls, n :: ns, h, hs => by
    simp only [List.map_cons, List.cons.injEq] at h
    have hq := strEq_handle t es ht n (hs n (by simp)) name hn
    obtain ⟨i1, i2⟩ := findLab_ok t es ht name hn ls ns h.2 (fun x hx => hs x (by simp [hx]))
    simp only [findLab]
    rw [h.1, hq]
    by_cases he : n = name
    · subst he
      simp only [decide_true]
      exact ⟨fun hh => by simp at hh, fun _ => ⟨[], l, ls, [], ns, rfl, rfl, rfl, rfl, by simp⟩⟩
    · simp only [he, decide_false]
      refine ⟨fun hh => ?_, fun hh => ?_⟩
      · rw [i1 (fun h => hh (by simp [h]))]
      · obtain ⟨a, x, b, na, nb, g1, g2, g3, g4, g5⟩ := i2 ((List.mem_cons.1 hh).resolve_left (Ne.symm he))
        rw [g1]
        exact ⟨l :: a, x, b, n :: na, nb, rfl, by rw [g2]; rfl, by rw [g3]; rfl, by simp [g4], by simp [g5, Ne.symm he]⟩

theorem statOf_lor (l : ALab) (d : Bool) :
    statOf l ||| (if d then 1 else 2) = statOf { l with defd := l.defd || d, used := l.used || !d } := by
  obtain ⟨n, k, x, y⟩ := l
  cases x <;> cases y <;> cases d <;> simp [statOf]

theorem statOf_odd (l : ALab) : statOf l % 2 = 1 ↔ l.defd = true := by
  obtain ⟨n, k, x, y⟩ := l
  cases x <;> cases y <;> simp [statOf]

/-- outcome of a mention of a label -/
theorem step_label (m : M) (a : A) (h : Rep m a) (n : Str) (d : Bool) (hn : NoNul n) :
    Good (step m (.label n d)) fun x => Rep x.1 (a.step (.label n d)) ∧ ∃ l ∈ (a.step (.label n d)).labs, l.name = n ∧ x.2 = some l.num := by
  have hfl := findLab_ok _ _ h.holds n hn m.s.labs a.labNames h.hh h.sub
  simp only [step, addLabel]
  by_cases hm : n ∈ a.labNames
  · obtain ⟨x, l, y, nx, ny, g1, g2, g3, g4, g5⟩ := hfl.2 hm
    rw [g1]
    simp only
    obtain ⟨ax, ay', hay, hax, har⟩ := List.map_eq_append_iff.1 g3
    obtain ⟨al, ay, rfl, hal, hay2⟩ := List.map_eq_cons_iff.1 har
    have hlenx : ax.length = x.length := by rw [← g4, ← hax]; simp
    have hnum := h.hnum
    rw [g2, hay, List.map_append, List.map_append] at hnum
    have hnum2 := List.append_inj hnum (by simp [hlenx])
    have hstat := h.hstat
    rw [g2, hay, List.map_append, List.map_append] at hstat
    have hstat2 := List.append_inj hstat (by simp [hlenx])
    have hs := hstat2.2
    have hk := hnum2.2
    simp only [List.map_cons, List.cons.injEq] at hs hk
    by_cases hr : d = true ∧ l.stat % 2 = 1
    · rw [if_pos hr]; simp [Good]
    · rw [if_neg hr]
      have hnd : a.labNames.Nodup := h.nodup
      rw [g3] at hnd
      have hny : n ∉ ny := by
        have := (List.nodup_append.1 hnd).2.1
        exact (List.nodup_cons.1 this).1
      have hid : ∀ (q : List ALab) (nq : List Str), q.map (·.name) = nq → n ∉ nq →
          (q.map fun l => if l.name = n then { l with defd := l.defd || d, used := l.used || !d } else l) = q := by
        intro q nq hq hnq
        conv => rhs; rw [← List.map_id q]
        apply List.map_congr_left
        intro z hz
        rw [if_neg]; · rfl
        intro hz2; exact hnq (by rw [← hq, ← hz2]; exact List.mem_map_of_mem hz)
      have hA : a.step (.label n d) = { a with labs := ax ++ { al with defd := al.defd || d, used := al.used || !d } :: ay } := by
        simp only [A.step]
        rw [if_pos hm, hay, List.map_append, List.map_cons, hid ax nx hax g5, hid ay ny hay2 hny, if_pos hal]
      rw [hA]
      have hln : (ax ++ { al with defd := al.defd || d, used := al.used || !d } :: ay).map (·.name) = a.labNames := by
        rw [A.labNames, hay]; simp
      refine ⟨⟨h.holds, ?_, ?_, ?_, h.hcnt, ?_, ?_, h.marks, h.mle, h.msort⟩, ?_⟩
      · have := h.hh
        rw [g2] at this
        show (x ++ { l with stat := _ } :: y).map (·.h) = List.map (offset a.ids) (List.map _ _)
        rw [hln, ← this]; simp
      · show (x ++ { l with stat := _ } :: y).map (·.num) = _
        rw [List.map_append, List.map_append, List.map_cons, List.map_cons, hnum2.1]
        simp only; rw [hk.1, hk.2]
      · show (x ++ { l with stat := _ } :: y).map (·.stat) = _
        rw [List.map_append, List.map_append, List.map_cons, List.map_cons, hstat2.1]
        simp only; rw [hs.1, hs.2, statOf_lor]
      · intro z hz
        exact h.sub z (by rw [← hln]; exact hz)
      · show (List.map _ _).Nodup
        rw [hln]; exact h.nodup
      · exact ⟨_, List.mem_append_right _ (List.mem_cons_self ..), hal, by simp [hk.1]⟩
  · rw [hfl.1 hm]
    simp only
    by_cases hmax : m.s.labs.length ≥ maxLabels
    · rw [if_pos hmax]; simp [Good]
    · rw [if_neg hmax]
      have hadd := step_add m a h n hn
      simp only [step] at hadd
      have hA : a.step (.label n d) = { a.addId n with labs := a.labs ++ [{ name := n, num := a.cnt, defd := d, used := !d }], cnt := a.cnt + 1 } := by
        simp only [A.step]; rw [if_neg hm]
      cases hg : add m.s.tab n with
      | error e =>
        rw [hg] at hadd
        simp only [Good] at hadd ⊢; exact hadd
      | ok r =>
        obtain ⟨t, hd⟩ := r
        rw [hg] at hadd
        obtain ⟨hr, h2, _⟩ := hadd
        simp only [Option.some.injEq] at h2
        rw [hA]
        have hnm : A.labNames { a.addId n with labs := a.labs ++ [{ name := n, num := a.cnt, defd := d, used := !d }], cnt := a.cnt + 1 } = a.labNames ++ [n] := by
          simp [A.labNames]
        have hmem : n ∈ (a.addId n).ids := by
          simp only [A.addId]; split <;> simp [*]
        refine ⟨⟨hr.holds, ?_, ?_, ?_, ?_, ?_, ?_, hr.marks, hr.mle, hr.msort⟩, ?_⟩
        · rw [hnm]
          have := hr.hh
          simp only at this
          show (m.s.labs ++ [_]).map Lab.h = _
          rw [List.map_append, this, List.map_append]
          show _ = List.map (offset (a.addId n).ids) a.labNames ++ List.map (offset (a.addId n).ids) [n]
          rw [show (a.addId n).labNames = a.labNames from rfl, List.map_singleton, List.map_singleton, h2]
        · show (m.s.labs ++ [_]).map Lab.num = (a.labs ++ [_]).map ALab.num
          rw [List.map_append, List.map_append, h.hnum]
          simp [h.hcnt]
        · show (m.s.labs ++ [_]).map Lab.stat = (a.labs ++ [_]).map statOf
          rw [List.map_append, List.map_append, h.hstat]
          cases d <;> simp [statOf]
        · show m.s.cnt + 1 = a.cnt + 1
          rw [h.hcnt]
        · rw [hnm]
          intro x hx
          rcases List.mem_append.1 hx with hx | hx
          · exact hr.sub x hx
          · have : x = n := by simpa using hx
            subst this; exact hmem
        · rw [hnm, List.nodup_append]
          refine ⟨h.nodup, by simp, ?_⟩
          intro u hu v hv
          have : v = n := by simpa using hv
          subst this
          intro huv; subst huv; exact hm hu
        · exact ⟨_, List.mem_append_right _ (List.mem_singleton.2 rfl), rfl, by simp [h.hcnt]⟩

/-! leaving a block -/

theorem pend_of (es : List Str) (base : List Str) (L : Str → Bool) (hnd : es.Nodup) : ∀ (ls : List Lab) (ns S pre : List Str),
    es = base ++ (pre ++ S) → ls.map (·.h) = ns.map (offset es) → ns.Nodup →
    (ns.filter fun n => n ∉ base) = S.filter L → Pend base ls ns S (total (base ++ pre))
  | [], [], S, pre, _, _, _, _ => Pend.nil S _
  | [], n :: ns, S, pre, _, h, _, _ => by simp at h
  | l :: ls, [], S, pre, _, h, _, _ => by simp at h
  | l :: ls, n :: ns, S, pre, he, h, hn, hf => by
    simp only [List.map_cons, List.cons.injEq] at h
    rw [List.nodup_cons] at hn
    by_cases hb : n ∈ base
    · rw [List.filter_cons_of_neg (by simpa using hb)] at hf
      exact Pend.low l ls n ns S _ hb (by rw [h.1, he, offset_left _ _ _ hb]) (pend_of es base L hnd ls ns S pre he h.2 hn.2 hf)
    · rw [List.filter_cons_of_pos (by simpa using hb)] at hf
      obtain ⟨A, B, hS, hA, hL, hB⟩ := List.filter_eq_cons_iff.1 hf.symm
      subst hS
      have hnot : n ∉ base ++ (pre ++ A) := by
        intro hh
        rw [he] at hnd
        have : (base ++ (pre ++ A) ++ n :: B).Nodup := by simpa using hnd
        exact (List.nodup_append.1 this).2.2 n hh n (by simp) rfl
      have hoff : l.h = total (base ++ pre) + total A := by
        rw [h.1, he, show base ++ (pre ++ (A ++ n :: B)) = (base ++ (pre ++ A)) ++ n :: B by simp, offset_append _ _ _ hnot]
        simp only [offset, if_true, Nat.add_zero, total_append]; omega
      have ih := pend_of es base L hnd ls ns B (pre ++ (A ++ [n])) (by rw [he]; simp) h.2 hn.2 hB.symm
      have e : total (base ++ (pre ++ (A ++ [n]))) = total (base ++ pre) + total A + size n := by
        have e1 : total [n] = size n := by simp [total]
        simp only [total_append, e1]; omega
      rw [e] at ih
      exact Pend.high l ls n ns A B _ hb hoff ih

theorem step_leave (m : M) (a : A) (h : Rep m a) (ho : a.Ordered) : Good (step m .leave) fun x => Rep x.1 (a.step .leave) := by
  unfold step
  simp only [A.step]
  cases hmk : a.marks with
  | nil =>
    have := h.marks
    rw [hmk] at this
    rw [this]
    exact h
  | cons k ks =>
    have hm := h.marks
    rw [hmk, List.map_cons] at hm
    rw [hm]
    simp only
    have hkl := h.mle k (by rw [hmk]; simp)
    have hord := ho k ks hmk
    obtain ⟨junk, hj⟩ := h.holds.pre
    have hsplit : a.ids = a.ids.take k ++ ([] ++ a.ids.drop k) := by simp
    have hp := pend_of a.ids (a.ids.take k) (fun n => decide (n ∈ a.labNames)) h.holds.nodup m.s.labs a.labNames (a.ids.drop k) [] hsplit h.hh h.nodup hord
    obtain ⟨t', ls', j, h1, h2, h3, h4, h5, h6, h7⟩ := undoLoop_ok _ hp { m.s.tab with len := total (a.ids.take k) } [] [] junk
      (fun n hn => h.holds.ok n (List.mem_of_mem_drop hn)) (fun _ _ => by simp) h.nodup
      (by
        show m.s.tab.mem = _
        rw [hj]
        conv => lhs; rw [show a.ids = a.ids.take k ++ a.ids.drop k by simp, enc_append]
        simp) (by simp) (by rw [enc_len]; simp)
    rw [List.nil_append] at h2 h4 h5
    unfold undo
    rw [h1]
    have hnew : (a.labNames.filter fun n => n ∉ a.ids.take k) = a.newer k := rfl
    rw [hnew] at h2 h4 h5
    have hms := h.msort
    rw [hmk, List.pairwise_cons] at hms
    have htake : ∀ q, q ∈ ks → (a.ids.take k ++ a.newer k).take q = a.ids.take q := by
      intro q hq
      have := hms.1 q hq
      rw [List.take_append_of_le_length (by simp; omega), List.take_take, Nat.min_eq_left this]
    refine ⟨⟨?_, h4, ⟨j, h2⟩, ?_, ?_⟩, h5, ?_, ?_, h.hcnt, ?_, h.nodup, ?_, ?_, hms.2⟩
    · show t'.mem.length = maxLen
      rw [h3]; exact h.holds.cap
    · intro e he
      rcases List.mem_append.1 he with he | he
      · exact h.holds.ok e (mem_take_sub he)
      · exact h.holds.ok e (h.sub e (List.mem_filter.1 he).1)
    · rw [List.nodup_append]
      refine ⟨h.holds.nodup.sublist (List.take_sublist _ _), h.nodup.sublist List.filter_sublist, ?_⟩
      intro u hu v hv huv
      subst huv
      have := (List.mem_filter.1 hv).2
      simp only [decide_eq_true_eq] at this
      exact this hu
    · show ls'.map (·.num) = _
      rw [h6]; exact h.hnum
    · show ls'.map (·.stat) = _
      rw [h7]; exact h.hstat
    · intro n hn
      show n ∈ a.ids.take k ++ a.newer k
      by_cases hnt : n ∈ a.ids.take k
      · exact List.mem_append_left _ hnt
      · exact List.mem_append_right _ (List.mem_filter.2 ⟨hn, by simpa using hnt⟩)
    · show ks.map _ = ks.map _
      exact List.map_congr_left fun q hq => by rw [htake q hq]
    · intro q hq
      have := hms.1 q hq
      show q ≤ (a.ids.take k ++ a.newer k).length
      simp; omega

theorem step_cut (m : M) (a : A) (h : Rep m a) (ho : a.NoLabels) : Good (step m .cut) fun x => Rep x.1 (a.step .cut) := by
  unfold step
  simp only [A.step]
  cases hmk : a.marks with
  | nil =>
    have := h.marks
    rw [hmk] at this
    rw [this]
    exact h
  | cons k ks =>
    have hm := h.marks
    rw [hmk, List.map_cons] at hm
    rw [hm]
    have hkl := h.mle k (by rw [hmk]; simp)
    have hord := ho k ks hmk
    obtain ⟨junk, hj⟩ := h.holds.pre
    have hms := h.msort
    rw [hmk, List.pairwise_cons] at hms
    have hin : ∀ n ∈ a.labNames, n ∈ a.ids.take k := by
      intro n hn
      by_cases hnt : n ∈ a.ids.take k
      · exact hnt
      · have : n ∈ a.newer k := List.mem_filter.2 ⟨hn, by simpa using hnt⟩
        rw [hord] at this; simp at this
    refine ⟨⟨h.holds.cap, rfl, ⟨enc (a.ids.drop k) ++ junk, ?_⟩, ?_, ?_⟩, ?_, h.hnum, h.hstat, h.hcnt, hin, h.nodup, ?_, ?_, hms.2⟩
    · show m.s.tab.mem = _
      rw [hj, ← List.append_assoc, ← enc_append]; simp
    · intro e he
      exact h.holds.ok e (mem_take_sub he)
    · exact h.holds.nodup.sublist (List.take_sublist _ _)
    · show m.s.labs.map (·.h) = a.labNames.map (offset (a.ids.take k))
      rw [h.hh]
      refine List.map_congr_left fun n hn => ?_
      conv => lhs; rw [show a.ids = a.ids.take k ++ a.ids.drop k by simp]
      exact offset_left _ _ _ (hin n hn)
    · show ks.map _ = ks.map _
      refine List.map_congr_left fun q hq => ?_
      have := hms.1 q hq
      rw [List.take_take, Nat.min_eq_left this]
    · intro q hq
      have := hms.1 q hq
      show q ≤ (a.ids.take k).length
      simp; omega

theorem step_rep (m : M) (a : A) (h : Rep m a) (o : Op) (hok : o.Ok) (h1 : o = .leave → a.Ordered) (h2 : o = .cut → a.NoLabels) :
    Good (step m o) fun x => Rep x.1 (a.step o) := by
  cases o with
  | add n =>
    have := step_add m a h n hok
    unfold Good at this ⊢
    split
    · rename_i heq; rw [heq] at this; exact this.1
    · rename_i heq; rw [heq] at this; exact this
  | label n d =>
    have := step_label m a h n d hok
    unfold Good at this ⊢
    split
    · rename_i heq; rw [heq] at this; exact this.1
    · rename_i heq; rw [heq] at this; exact this
  | enter =>
    refine ⟨h.holds, h.hh, h.hnum, h.hstat, h.hcnt, h.sub, h.nodup, ?_, ?_, ?_⟩
    · show m.s.tab.len :: m.marks = (a.ids.length :: a.marks).map _
      rw [List.map_cons, h.marks, h.holds.len]; simp [A.step]
    · intro k hk
      rcases List.mem_cons.1 hk with rfl | hk
      · exact Nat.le_refl _
      · exact h.mle k hk
    · exact List.pairwise_cons.2 ⟨fun k hk => h.mle k hk, h.msort⟩
  | leave => exact step_leave m a h (h1 rfl)
  | cut => exact step_cut m a h (h2 rfl)
  | start =>
    exact ⟨h.holds, rfl, rfl, rfl, h.hcnt, by simp [A.step, A.labNames], by simp [A.step, A.labNames], h.marks, h.mle, h.msort⟩

theorem run_rep (os : List Op) : ∀ (m : M) (a : A), Rep m a → (∀ o ∈ os, o.Ok) → OrderedRun a os → Good (run m os) fun x => Rep x (a.run os) := by
  induction os with
  | nil => intro m a h _ _; exact h
  | cons o os ih =>
    intro m a h hok ho
    have hs := step_rep m a h o (hok o (by simp)) ho.1 ho.2.1
    simp only [run, A.run]
    cases hst : step m o with
    | error e => rw [hst] at hs; exact hs
    | ok x => rw [hst] at hs; exact ih x.1 _ hs (fun o ho => hok o (by simp [ho])) ho.2.2

/-! identifiers of open blocks keep their offsets -/

structure Ext (a b : A) (d : Nat) : Prop where
  pre : ∃ r, b.ids = a.ids ++ r
  marks : ∃ new, b.marks = new ++ a.marks ∧ new.length = d ∧ ∀ k ∈ new, a.ids.length ≤ k

theorem ext_step (a b : A) (d : Nat) (h : Ext a b d) (o : Op) (os : List Op) (hw : Within d (o :: os)) : ∃ d', Within d' os ∧ Ext a (b.step o) d' := by
  obtain ⟨⟨r, hr⟩, new, hn1, hn2, hn3⟩ := h
  cases o with
  | add n =>
    refine ⟨d, hw, ?_, new, hn1, hn2, hn3⟩
    simp only [A.step, A.addId]
    split
    · exact ⟨r, hr⟩
    · exact ⟨r ++ [n], by rw [hr]; simp⟩
  | label n x =>
    refine ⟨d, hw, ?_, new, ?_, hn2, hn3⟩
    · simp only [A.step]
      split
      · exact ⟨r, hr⟩
      · simp only [A.addId]
        split
        · exact ⟨r, hr⟩
        · exact ⟨r ++ [n], by rw [hr]; simp⟩
    · simp only [A.step]
      split <;> exact hn1
  | enter =>
    refine ⟨d + 1, hw, ⟨r, hr⟩, b.ids.length :: new, ?_, by simp [hn2], ?_⟩
    · simp only [A.step]; rw [hn1]; rfl
    · intro k hk
      rcases List.mem_cons.1 hk with rfl | hk
      · rw [hr]; simp
      · exact hn3 k hk
  | leave =>
    obtain ⟨d', rfl, hw'⟩ := hw
    refine ⟨d', hw', ?_⟩
    cases new with
    | nil => simp at hn2
    | cons k new =>
      simp only [A.step, hn1, List.cons_append]
      have hk := hn3 k (by simp)
      refine ⟨⟨r.take (k - a.ids.length) ++ b.newer k, ?_⟩, new, rfl, by simpa using hn2, fun q hq => hn3 q (by simp [hq])⟩
      simp only
      rw [hr, List.take_append, List.take_of_length_le hk, List.append_assoc]
  | cut =>
    obtain ⟨d', rfl, hw'⟩ := hw
    refine ⟨d', hw', ?_⟩
    cases new with
    | nil => simp at hn2
    | cons k new =>
      simp only [A.step, hn1, List.cons_append]
      have hk := hn3 k (by simp)
      refine ⟨⟨r.take (k - a.ids.length), ?_⟩, new, rfl, by simpa using hn2, fun q hq => hn3 q (by simp [hq])⟩
      simp only
      rw [hr, List.take_append, List.take_of_length_le hk]
  | start => exact ⟨d, hw, ⟨r, hr⟩, new, hn1, hn2, hn3⟩

theorem ext_run (os : List Op) (a : A) : ∀ (b : A) (d : Nat), Ext a b d → Within d os → ∃ d', Ext a (b.run os) d' := by
  induction os with
  | nil => intro b d h _; exact ⟨d, h⟩
  | cons o os ih =>
    intro b d h hw
    obtain ⟨d', h1, h2⟩ := ext_step a b d h o os hw
    exact ih (b.step o) d' h2 h1

theorem offset_inj (es : List Str) : ∀ (x y : Str), x ∈ es → y ∈ es → offset es x = offset es y → x = y := by
  induction es with
  | nil => intro x y hx; simp at hx
  | cons e es ih =>
    intro x y hx hy h
    simp only [offset] at h
    by_cases h1 : e = x <;> by_cases h2 : e = y
    · rw [← h1, h2]
    · rw [if_pos h1, if_neg h2] at h; unfold size at h; omega
    · rw [if_neg h1, if_pos h2] at h; unfold size at h; omega
    · rw [if_neg h1, if_neg h2] at h
      exact ih x y ((List.mem_cons.1 hx).resolve_left (Ne.symm h1)) ((List.mem_cons.1 hy).resolve_left (Ne.symm h2)) (by omega)

end Smlr.Ident
