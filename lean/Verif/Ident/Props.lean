import Verif.Ident.Run
set_option autoImplicit false
/-! Property C20: interned identifiers. -/
namespace Smlr.Ident
open Smlr.Macro (Str NoNul Tab Err rd wr wrs strEq move)

/-- C20: no history accesses memory outside the table; and after it, every identifier in force has a handle denoting its
spelling, different identifiers have different handles; adding an identifier gives its handle, changing nothing if it is
known already, and else keeping the spellings of all other handles; the handle of every label of the function denotes its
name, and labels keep their numbers and states.

Partial: this supposes that, whenever a block ends, its labels stand in the table in the order in which they were first
mentioned as labels (`Ordered`), which is not so if a label's name was mentioned earlier in the block as an ordinary
identifier; then the claim is false (`c20_defect`) -/
theorem c20_intern_partial (ops : List Op) (hok : ∀ o ∈ ops, o.Ok) (ho : OrderedRun A.init ops) :
    (∀ e, run init ops = .error e → e ≠ .tab .oob) ∧
    ∀ m, run init ops = .ok m →
      (∀ n ∈ (A.init.run ops).ids, Denotes m.s.tab (offset (A.init.run ops).ids n) n) ∧
      (∀ x ∈ (A.init.run ops).ids, ∀ y ∈ (A.init.run ops).ids, offset (A.init.run ops).ids x = offset (A.init.run ops).ids y ↔ x = y) ∧
      (∀ n ∈ (A.init.run ops).ids, NoNul n → step m (.add n) = .ok (m, some (offset (A.init.run ops).ids n))) ∧
      (∀ n ∉ (A.init.run ops).ids, NoNul n → ∀ m' r, step m (.add n) = .ok (m', r) →
        ∃ h, r = some h ∧ Denotes m'.s.tab h n ∧
          ∀ x ∈ (A.init.run ops).ids, h ≠ offset (A.init.run ops).ids x ∧ Denotes m'.s.tab (offset (A.init.run ops).ids x) x) ∧
      m.s.labs.map (·.h) = (A.init.run ops).labs.map (fun l => offset (A.init.run ops).ids l.name) ∧
      (∀ l ∈ (A.init.run ops).labs, l.name ∈ (A.init.run ops).ids) ∧
      m.s.labs.map (·.num) = (A.init.run ops).labs.map (·.num) ∧
      m.s.labs.map (·.stat) = (A.init.run ops).labs.map (fun l => (if l.defd then 1 else 0) + (if l.used then 2 else 0)) := by
  have hg := run_rep ops init A.init rep_init hok ho
  constructor
  · intro e he; rw [he] at hg; exact hg
  · intro m hm
    rw [hm] at hg
    have h : Rep m (A.init.run ops) := hg
    refine ⟨fun n hn => denotes _ _ h.holds n hn, fun x hx y hy => ⟨offset_inj _ x y hx hy, fun e => by rw [e]⟩, ?_, ?_, ?_, ?_, h.hnum, h.hstat⟩
    · intro n hn hnn
      simp only [step, (add_ok _ _ h.holds n hnn).1 hn]
    · intro n hn hnn m' r hs
      have := step_add m _ h n hnn
      rw [hs] at this
      obtain ⟨h1, h2, _⟩ := this
      have e : ((A.init.run ops).addId n).ids = (A.init.run ops).ids ++ [n] := by simp only [A.addId]; rw [if_neg hn]
      have hh := h1.holds
      rw [e] at hh h2
      refine ⟨_, h2, denotes _ _ hh n (by simp), fun x hx => ⟨?_, ?_⟩⟩
      · rw [← offset_left _ [n] x hx]
        intro e2
        have := offset_inj _ _ _ (by simp) (by simp [hx]) e2
        subst this; exact hn hx
      · rw [← offset_left _ [n] x hx]
        exact denotes _ _ hh x (by simp [hx])
    · rw [h.hh, A.labNames, List.map_map]; rfl
    · intro l hl
      exact h.sub _ (List.mem_map_of_mem hl)

/-- C20: which identifiers and labels are accepted: a new identifier if its name has at most 126 characters and it fits the
table of 5632 bytes with those in force, each taking its length and two bytes more; a new label if besides that the function
has fewer than 16.  Everything else new is diagnosed.

Partial: it supposes `Ordered` as `c20_intern_partial` does -/
theorem c20_accept_partial (ops : List Op) (hok : ∀ o ∈ ops, o.Ok) (ho : OrderedRun A.init ops) (m : M) (hm : run init ops = .ok m)
    (n : Str) (hn : NoNul n) :
    (n ∉ (A.init.run ops).ids →
      ((∃ x, step m (.add n) = .ok x) ↔ n.length ≤ 126 ∧ ((A.init.run ops).ids.map fun x => x.length + 2).sum + (n.length + 2) ≤ 5632)) ∧
    ∀ d, n ∉ (A.init.run ops).labNames →
      ((∃ x, step m (.label n d) = .ok x) ↔ (A.init.run ops).labs.length < 16 ∧ (n ∈ (A.init.run ops).ids ∨
        n.length ≤ 126 ∧ ((A.init.run ops).ids.map fun x => x.length + 2).sum + (n.length + 2) ≤ 5632)) := by
  have hg := run_rep ops init A.init rep_init hok ho
  rw [hm] at hg
  have h : Rep m (A.init.run ops) := hg
  have hadd := add_ok _ _ h.holds n hn
  have hll : m.s.labs.length = (A.init.run ops).labs.length := by simpa using congrArg List.length h.hnum
  change _ ∧ (n ∉ (A.init.run ops).ids → n.length ≤ 126 → ((A.init.run ops).ids.map fun x => x.length + 2).sum + (n.length + 2) ≤ 5632 → _) ∧
    (n ∉ (A.init.run ops).ids → ¬ (n.length ≤ 126 ∧ ((A.init.run ops).ids.map fun x => x.length + 2).sum + (n.length + 2) ≤ 5632) → _) at hadd
  generalize ((A.init.run ops).ids.map fun x => x.length + 2).sum + (n.length + 2) = w at hadd ⊢
  obtain ⟨a1, a2, a3⟩ := hadd
  refine ⟨fun hni => ?_, fun d hnl => ?_⟩
  · simp only [step]
    by_cases hf : n.length ≤ 126 ∧ w ≤ 5632
    · obtain ⟨t, g, _⟩ := a2 hni hf.1 hf.2
      rw [g]; exact ⟨fun _ => hf, fun _ => ⟨_, rfl⟩⟩
    · obtain ⟨e, g, _⟩ := a3 hni hf
      rw [g]; exact ⟨fun ⟨_, hx⟩ => by simp at hx, fun hx => absurd hx hf⟩
  · have hfl := (findLab_ok _ _ h.holds n hn m.s.labs _ h.hh h.sub).1 hnl
    simp only [step, addLabel, hfl]
    by_cases hc : (A.init.run ops).labs.length < 16
    · rw [if_neg (show ¬ m.s.labs.length ≥ maxLabels by rw [hll]; show ¬ _ ≥ 16; omega)]
      by_cases hi : n ∈ (A.init.run ops).ids
      · rw [a1 hi]; exact ⟨fun _ => ⟨hc, Or.inl hi⟩, fun _ => ⟨_, rfl⟩⟩
      · by_cases hf : n.length ≤ 126 ∧ w ≤ 5632
        · obtain ⟨t, g, _⟩ := a2 hi hf.1 hf.2
          rw [g]; exact ⟨fun _ => ⟨hc, Or.inr hf⟩, fun _ => ⟨_, rfl⟩⟩
        · obtain ⟨e, g, _⟩ := a3 hi hf
          rw [g]; exact ⟨fun ⟨_, hx⟩ => by simp at hx, fun hx => absurd hx.2 (by simp only [hi, false_or]; exact hf)⟩
    · rw [if_pos (show m.s.labs.length ≥ maxLabels by rw [hll]; show _ ≥ 16; omega)]
      exact ⟨fun ⟨_, hx⟩ => by simp at hx, fun hx => absurd hx.1 hc⟩

-- a table with nothing in it takes `a`, as identifier and as label
example : (∃ x, step init (.add [0x61]) = .ok x) ∧ ∃ x, step init (.label [0x61] true) = .ok x := by
  have h := c20_accept_partial [] (by simp) (by simp [OrderedRun]) init rfl [0x61] (by simp [NoNul])
  exact ⟨(h.1 (by simp [A.run, A.init])).2 (by simp [A.run, A.init]),
    (h.2 true (by simp [A.run, A.init, A.labNames])).2 (by simp [A.run, A.init])⟩

/-- C20: an identifier keeps its handle as long as the blocks open when it was known are not left -/
theorem c20_stable (ops rest : List Op) (hw : Within 0 rest) (n : Str) (hn : n ∈ (A.init.run ops).ids) :
    n ∈ ((A.init.run ops).run rest).ids ∧ offset ((A.init.run ops).run rest).ids n = offset (A.init.run ops).ids n := by
  obtain ⟨_, ⟨r, hr⟩, _⟩ := ext_run rest (A.init.run ops) (A.init.run ops) 0 ⟨⟨[], by simp⟩, [], rfl, rfl, by simp⟩ hw
  rw [hr]
  exact ⟨List.mem_append_left _ hn, offset_left _ _ _ hn⟩

theorem inj_of_nodup_map (ls : List ALab) : (ls.map (·.name)).Nodup → ∀ x y, x ∈ ls → y ∈ ls → x.name = y.name → x = y := by
  induction ls with
  | nil => intro _ x y hx; simp at hx
  | cons l ls ih =>
    intro h x y hx hy e
    rw [List.map_cons, List.nodup_cons] at h
    rcases List.mem_cons.1 hx with rfl | hx' <;> rcases List.mem_cons.1 hy with rfl | hy'
    · rfl
    · exact absurd (by rw [e]; exact List.mem_map_of_mem hy') h.1
    · exact absurd (by rw [← e]; exact List.mem_map_of_mem hx') h.1
    · exact ih h.2 x y hx' hy' e

/-- C20: mentions of one label get one number, and the number of a label is never given to another one -/
theorem c20_label_partial (ops : List Op) (hok : ∀ o ∈ ops, o.Ok) (ho : OrderedRun A.init ops) (m : M) (hm : run init ops = .ok m)
    (n : Str) (hn : NoNul n) (d : Bool) (m' : M) (r : Option Nat) (hs : step m (.label n d) = .ok (m', r)) :
    (∀ l ∈ (A.init.run ops).labs, l.name = n → r = some l.num) ∧
    (n ∉ (A.init.run ops).labNames → r = some (A.init.run ops).cnt) := by
  have hg := run_rep ops init A.init rep_init hok ho
  rw [hm] at hg
  have h : Rep m (A.init.run ops) := hg
  have := step_label m _ h n d hn
  rw [hs] at this
  obtain ⟨_, l, hl, hln, hr⟩ := this
  simp only at hr
  constructor
  · intro x hx hxn
    have hmem : n ∈ (A.init.run ops).labNames := by rw [← hxn]; exact List.mem_map_of_mem hx
    simp only [A.step] at hl
    rw [if_pos hmem] at hl
    obtain ⟨y, hy, rfl⟩ := List.mem_map.1 hl
    have hyn : y.name = n := by
      by_cases e : y.name = n
      · exact e
      · rw [if_neg e] at hln; exact hln
    rw [if_pos hyn] at hr
    rw [hr]
    have hxy : x = y := inj_of_nodup_map _ h.nodup x y hx hy (by rw [hxn, hyn])
    rw [hxy]
  · intro hnm
    simp only [A.step] at hl
    rw [if_neg hnm] at hl
    rcases List.mem_append.1 hl with hl | hl
    · exact absurd (by rw [← hln]; exact List.mem_map_of_mem hl) hnm
    · rw [hr, List.mem_singleton.1 hl]

/-- the numbers of labels are below the counter, and different -/
theorem c20_label_numbers (ops : List Op) : ((A.init.run ops).labs.map (·.num)).Nodup ∧ ∀ l ∈ (A.init.run ops).labs, l.num < (A.init.run ops).cnt := by
  suffices H : ∀ (ops : List Op) (a : A), ((a.labs.map (·.num)).Nodup ∧ ∀ l ∈ a.labs, l.num < a.cnt) →
      (((a.run ops).labs.map (·.num)).Nodup ∧ ∀ l ∈ (a.run ops).labs, l.num < (a.run ops).cnt) from H ops A.init (by simp [A.init])
  intro ops
  induction ops with
  | nil => intro a h; exact h
  | cons o os ih =>
    intro a h
    refine ih (a.step o) ?_
    cases o with
    | add n => exact h
    | enter => exact h
    | start => simp [A.step]
    | leave => simp only [A.step]; split <;> exact h
    | cut => simp only [A.step]; split <;> exact h
    | label n d =>
      simp only [A.step]
      split
      · have e : (a.labs.map fun l => if l.name = n then { l with defd := l.defd || d, used := l.used || !d } else l).map (·.num) = a.labs.map (·.num) := by
          rw [List.map_map]
          refine List.map_congr_left fun l _ => ?_
          simp only [Function.comp]; split <;> rfl
        refine ⟨by simp only [e]; exact h.1, ?_⟩
        intro l hl
        obtain ⟨y, hy, rfl⟩ := List.mem_map.1 hl
        have := h.2 y hy
        split <;> exact this
      · refine ⟨?_, ?_⟩
        · rw [List.map_append, List.nodup_append]
          refine ⟨h.1, by simp, ?_⟩
          intro u hu v hv huv
          obtain ⟨y, hy, rfl⟩ := List.mem_map.1 hu
          have := h.2 y hy
          have hv : v = a.cnt := by simpa using hv
          omega
        · intro l hl
          rcases List.mem_append.1 hl with hl | hl
          · have := h.2 l hl
            exact Nat.lt_succ_of_lt this
          · rw [List.mem_singleton.1 hl]; exact Nat.lt_succ_self _

/-- `int b; { int c; goto a; goto b; } a: b:` -/
def sample : List Op := [.add [0x62], .enter, .add [0x63], .label [0x61] false, .label [0x62] false, .leave, .label [0x61] true, .label [0x62] true]
example : (∀ o ∈ sample, o.Ok) ∧ OrderedRun A.init sample := by
  refine ⟨?_, ?_⟩
  · intro o ho
    simp only [sample, List.mem_cons, List.not_mem_nil, or_false] at ho
    rcases ho with rfl | rfl | rfl | rfl | rfl | rfl | rfl | rfl <;> simp [Op.Ok, NoNul]
  · simp [sample, OrderedRun, A.step, A.addId, A.init, A.Ordered, A.newer, A.labNames]
example : (A.init.run sample).ids = [[0x62], [0x61]] := rfl
example : Within 0 [.enter, .add [0x63], .leave, .add [0x64]] := by simp [Within]

/-- `{ int b; goto a; goto b; }` -/
def bad : List Op := [.enter, .add [0x62], .label [0x61] false, .label [0x62] false]

/-- C20 is false: in `{ int b; goto a; goto b; }` the end of the block turns the name of label `b` into `a`: `b` is not a
label any more, so that a following `b:` is another label and the `goto` is left without its target -/
theorem c20_defect : ∀ m, run init bad = .ok m → ∃ m', step m .leave = .ok (m', none) ∧
    m'.s.labs.map (·.num) = [0, 1] ∧ m'.s.labs.map (·.h) = [0, 3] ∧ Denotes m'.s.tab 0 [0x61] ∧ Denotes m'.s.tab 3 [0x61] ∧
    findLab m'.s.tab [0x62] m'.s.labs = .ok none := by
  intro m hm
  have hok : ∀ o ∈ bad, o.Ok := by
    intro o ho
    simp only [bad, List.mem_cons, List.not_mem_nil, or_false] at ho
    rcases ho with rfl | rfl | rfl | rfl <;> simp [Op.Ok, NoNul]
  have hg := run_rep bad init A.init rep_init hok (by simp [bad, OrderedRun])
  rw [hm] at hg
  have h : Rep m (A.init.run bad) := hg
  have hids : (A.init.run bad).ids = [[0x62], [0x61]] := rfl
  have hlab : (A.init.run bad).labNames = [[0x61], [0x62]] := rfl
  obtain ⟨j, hj⟩ := h.holds.pre
  have hh := h.hh
  have hnum := h.hnum
  have hmarks := h.marks
  rw [show (A.init.run bad).marks = [0] from rfl] at hmarks
  rw [show (A.init.run bad).labs.map (·.num) = [0, 1] from rfl] at hnum
  rw [hids] at hj hh hmarks
  rw [hlab] at hh
  obtain ⟨⟨⟨mem, len⟩, labs, cnt⟩, marks⟩ := m
  have hlen : labs.length = 2 := by have := congrArg List.length hh; simpa using this
  obtain ⟨l0, l1, rfl⟩ : ∃ x y, labs = [x, y] := by
    match labs, hlen with
    | [x, y], _ => exact ⟨x, y, rfl⟩
  obtain ⟨a0, b0, c0⟩ := l0
  obtain ⟨a1, b1, c1⟩ := l1
  have hh2 : a0 = 3 ∧ a1 = 0 := by simpa [offset, size] using hh
  have hn2 : b0 = 0 ∧ b1 = 1 := by simpa using hnum
  obtain ⟨rfl, rfl⟩ := hh2
  obtain ⟨rfl, rfl⟩ := hn2
  have hmk : marks = [0] := by simpa [total] using hmarks
  subst hmk
  have hjm : mem = [0x62, 0, 2, 0x61, 0, 2] ++ j := hj
  subst hjm
  have hA : NoNul [0x61] := by simp [NoNul]
  have hB : NoNul [0x62] := by simp [NoNul]
  have s1 : strlen ⟨[0x62, 0, 2, 0x61, 0, 2] ++ j, 0⟩ 3 = .ok 1 := strlen_ok _ [0x62, 0, 2] j [0x61] hA rfl
  have m1 : move ⟨[0x62, 0, 2, 0x61, 0, 2] ++ j, 0⟩ 0 3 3 = .ok ⟨[0x61, 0, 2, 0x61, 0, 2] ++ j, 0⟩ := by
    simp [move]
  have s2 : strlen ⟨[0x61, 0, 2, 0x61, 0, 2] ++ j, 3⟩ 0 = .ok 1 := strlen_ok _ [] ([0x61, 0, 2] ++ j) [0x61] hA rfl
  have m2 : move ⟨[0x61, 0, 2, 0x61, 0, 2] ++ j, 3⟩ 3 0 3 = .ok ⟨[0x61, 0, 2, 0x61, 0, 2] ++ j, 3⟩ := by
    simp [move]
  refine ⟨⟨⟨⟨[0x61, 0, 2, 0x61, 0, 2] ++ j, 6⟩, [⟨0, 0, c0⟩, ⟨3, 1, c1⟩], cnt⟩, []⟩, ?_, rfl, rfl, ?_, ?_, ?_⟩
  · simp only [step, undo, undoLoop, ge_iff_le, Nat.zero_le, if_true, s1, m1, s2, m2, Nat.reduceAdd]
  · exact denotes_at _ [] ([0x61, 0, 2] ++ j) [0x61] rfl
  · exact denotes_at _ [0x61, 0, 2] j [0x61] rfl
  · have q1 : strEq ⟨[0x61, 0, 2, 0x61, 0, 2] ++ j, 6⟩ 0 [0x62] = .ok false := strEq_entry _ [] ([0x61, 0, 2] ++ j) [0x61] hA rfl _ hB
    have q2 : strEq ⟨[0x61, 0, 2, 0x61, 0, 2] ++ j, 6⟩ 3 [0x62] = .ok false := strEq_entry _ [0x61, 0, 2] j [0x61] hA rfl _ hB
    simp only [findLab, q1, q2]

/-- the block of `c20_defect` is accepted -/
theorem bad_accepted : ∃ m, run init bad = .ok m := by
  have hB : NoNul [0x62] := by simp [NoNul]
  have hA : NoNul [0x61] := by simp [NoNul]
  have h0 : Holds init.s.tab [] := rep_init.holds
  obtain ⟨t1, e1, h1⟩ := (add_ok _ _ h0 [0x62] hB).2.1 (by simp) (by decide) (by decide)
  obtain ⟨t2, e2, h2⟩ := (add_ok _ _ h1 [0x61] hA).2.1 (by decide) (by decide) (by decide)
  have e3 := (add_ok _ _ h2 [0x62] hB).1 (by decide)
  have q : strEq t2 3 [0x62] = .ok false := strEq_handle t2 _ h2 [0x61] (by decide) [0x62] hB
  have e2' : add t1 [0x61] = .ok (t2, 3) := e2
  simp [bad, run, step, e1, addLabel, findLab, init, maxLabels] at *
  simp [e1, e2', findLab, q, e3]

end Smlr.Ident
