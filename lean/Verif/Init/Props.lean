import Verif.Init.Unique
import Verif.Init.Bridge

/-! # C38: initialised data -/
set_option autoImplicit false

namespace Smlr.Init

theorem head_lb {ts : List Tok} (h : ts.head? = some .lb) : ∃ r, ts = .lb :: r := by
  cases ts with
  | nil => cases h
  | cons t r =>
    have : t = .lb := by simpa using h
    exact ⟨r, by rw [this]⟩

/-- one initialiser that begins with a brace -/
theorem is_br {i : Ini} {r ts : List Tok} (h : ts.head? = some .lb) (e : ts = flat i ++ r) : ∃ l tc, i = .br l tc := by
  subst e
  cases i with
  | br l tc => exact ⟨l, tc, rfl⟩
  | ex l v => simp [flat] at h
  | lit w p ps => simp [flat] at h

theorem topOk_br (t : Ty) (l : List Ini) (tc : Bool) : topOk t (.br l tc) = true := by
  cases t <;> rfl

/-- **C38** For every variable of every type and every text of an initialiser that is accepted: the text is an initialiser `i` (and only one), which has a meaning for that type; the bytes emitted are those that it places at the offsets of members, with zeros everywhere else; and there are as many as the size of the (completed) type. -/
theorem c38_data (W : Nat) (t : Ty) (ts : List Tok) (out : List Cell) (t' : Ty) (r : List Tok) (hw : WFTop t) (h : initVar W t ts = some (out, t', r)) :
    ∃ i pl, ts = flat i ++ r ∧ topOk t i = true ∧ Means W t i t' pl ∧ Within 0 (size t') pl ∧ out = img 0 (size t') pl ∧ out.length = size t' ∧ (r.head? = some .comma ∨ r.head? = some .semi) := by
  unfold initVar at h
  obtain ⟨⟨out1, t1, r1⟩, h1, h⟩ := Option.bind_eq_some_iff.mp h
  split at h
  · rename_i hr
    simp only [Option.some.injEq, Prod.mk.injEq] at h
    obtain ⟨rfl, rfl, rfl⟩ := h
    suffices hh : ∃ i pl, ts = flat i ++ r1 ∧ topOk t i = true ∧ Means W t i t1 pl ∧ Within 0 (size t1) pl ∧ out1 = img 0 (size t1) pl by
      obtain ⟨i, pl, a1, a2, a3, a4, a5⟩ := hh
      exact ⟨i, pl, a1, a2, a3, a4, a5, by rw [a5, img_length], hr⟩
    have hne : ¬ Ends r1 := by
      intro he
      rw [Ends] at he
      rw [he] at hr
      rcases hr with hr | hr <;> cases hr
    cases t with
    | sc n k =>
      dsimp only at h1
      obtain ⟨⟨o, r⟩, h2, h1⟩ := Option.bind_eq_some_iff.mp h1
      simp only [Option.some.injEq, Prod.mk.injEq] at h1
      obtain ⟨rfl, rfl, rfl⟩ := h1
      rw [WFTop] at hw
      · have hts : ¬ Ends ts := by
          intro he
          obtain ⟨r', e⟩ := ends_cases _ he
          subst e
          rw [init] at h2
          simp [initScalar, opened, value] at h2
        obtain ⟨l, tc, a1, a2, a3, a4⟩ := init_sound W _ hw ts o r hts h2
        · obtain ⟨pl, b1, b2, b3⟩ := a4 0
          have b4 := b3 [] (fun _ => rfl)
          rw [List.append_nil] at b4
          have htc : tc = false := by
            cases tc with
            | false => rfl
            | true => exact absurd (a3 rfl) hne
          subst htc
          cases l with
          | nil => exact absurd rfl a1
          | cons i l =>
            have : l = [] := by
              dsimp only at b4
              rw [sub] at b4
              obtain ⟨v, h1, h⟩ := Option.bind_eq_some_iff.mp b4
              obtain ⟨c, h2, h⟩ := Option.bind_eq_some_iff.mp h
              simp only [Option.some.injEq, Prod.mk.injEq] at h
              exact h.2
            subst this
            refine ⟨i, pl, by rw [a2]; simp [flatL, tcs], rfl, .known ?_ b4, by rw [Nat.zero_add] at b1; exact b1, b2.symm⟩
            rw [WF] at hw
            rw [size]
            exact hw
      · intro n e h; cases h
    | su u sz ms =>
      dsimp only at h1
      split at h1
      · rename_i hlb
        obtain ⟨⟨o, r⟩, h2, h1⟩ := Option.bind_eq_some_iff.mp h1
        simp only [Option.some.injEq, Prod.mk.injEq] at h1
        obtain ⟨rfl, rfl, rfl⟩ := h1
        rw [WFTop] at hw
        · obtain ⟨l, tc, a1, a2, a3, a4⟩ := init_sound W _ hw ts o r (by rw [Ends, hlb]; simp) h2
          obtain ⟨pl, b1, b2, b3⟩ := a4 0
          have b4 := b3 [] (fun _ => rfl)
          rw [List.append_nil] at b4
          have htc : tc = false := by
            cases tc with
            | false => rfl
            | true => exact absurd (a3 rfl) hne
          subst htc
          have hpos := (init_complete W _ hw).2
          cases l with
          | nil => exact absurd rfl a1
          | cons i l =>
            have hi : ∃ m tc, i = .br m tc := by
              rw [a2, flatL_after] at hlb
              exact is_br hlb rfl
            obtain ⟨m, tc, rfl⟩ := hi
            have : l = [] := by
              dsimp only at b4
              rw [sub] at b4
              rcases aggr_cases b4 with ⟨_, _, _, _, _, e⟩ | ⟨e, _⟩
              · exact e.symm
              · exact absurd rfl (e m tc)
            subst this
            exact ⟨_, pl, by rw [a2]; simp [flatL, tcs], rfl, .known (by omega) b4, by rw [Nat.zero_add] at b1; exact b1, b2.symm⟩
        · intro n e h; cases h
      · cases h1
    | arr n e =>
      dsimp only at h1
      split at h1
      · rename_i hhead
        obtain ⟨⟨o, c, r⟩, h2, h1⟩ := Option.bind_eq_some_iff.mp h1
        simp only [Option.some.injEq, Prod.mk.injEq] at h1
        obtain ⟨rfl, rfl, rfl⟩ := h1
        rw [WFTop] at hw
        have hpos := (init_complete W _ hw).2
        cases hs : strStart (kind e) (opened ts).2 with
        | true =>
          obtain ⟨i, s, a1, a2, a3, a4, a5⟩ := str_ok h2 hs
          have htop : topOk (.arr n e) i = true := by simp [topOk, a2]
          by_cases hn : n = 0
          · subst hn
            have := a4 rfl
            subst this
            refine ⟨i, _, a1, htop, .string a2, ?_, a5 0⟩
            rw [size]
            exact (chars_within _ _ _).mono (Nat.le_refl _) (by rw [Nat.zero_add, Nat.succ_mul]; omega)
          · obtain ⟨b1, b2⟩ := a3 hn
            subst b2
            refine ⟨i, chars (size e) 0 s, a1, htop, .known ?_ ?_, ?_, a5 0⟩
            · rw [size]
              exact Nat.ne_of_gt (Nat.mul_pos (Nat.pos_of_ne_zero hn) hpos)
            · rw [sub]
              exact arrOf_str a2 b1
            · rw [size]
              exact (chars_within _ _ _).mono (Nat.le_refl _) (by rw [Nat.zero_add]; exact Nat.mul_le_mul_right _ b1)
        | false =>
          have hlb : ts.head? = some .lb := by
            rcases hhead with h | h
            · exact h
            · rcases opened_cases ts with ⟨r', rfl, e'⟩ | ⟨_, e'⟩
              · rfl
              · rw [e'] at hs
                rw [h] at hs
                cases hs
          obtain ⟨l, tc, m, a1, a2, a3, a4, a5, a6, a7, a8⟩ := list_ok (init_sound W e hw) (by rw [Ends, hlb]; simp) h2 hs
          obtain ⟨b1, b2, b3⟩ := a8 hlb
          subst b2
          match l, b1 with
          | [i], _ =>
            obtain ⟨pl, c1, c2, c3⟩ := a7 0
            have c4 := c3 [] (fun _ => rfl)
            rw [List.append_nil] at c4
            have e1 : ts = flat i ++ r := by rw [a2]; simp [flatL, tcs]
            have hstr := a6 i rfl
            obtain ⟨q, tc, rfl⟩ := is_br hlb e1
            rw [Nat.zero_add] at c1
            refine ⟨_, pl, e1, rfl, ?_, by rw [size]; exact c1, by rw [size]; exact c2.symm⟩
            by_cases hn : n = 0
            · subst hn
              rw [if_pos rfl] at a4
              subst a4
              exact .list hstr (by rw [sub]; exact c4) (by rw [sub]; exact b3 0)
            · rw [if_neg hn] at a4
              subst a4
              refine .known ?_ (by rw [sub]; exact c4)
              rw [size]
              exact Nat.ne_of_gt (Nat.mul_pos (Nat.pos_of_ne_zero hn) hpos)
      · cases h1
  · cases h

/-- **C38** The other way round: every initialiser with a meaning is accepted, with exactly those bytes, unless an expression in it begins with a string literal. -/
theorem c38_accepts (W : Nat) (t : Ty) (i : Ini) (t' : Ty) (pl : Pl) (r : List Tok) (hw : WFTop t) (hp : plain i = true) (ht : topOk t i = true) (hm : Means W t i t' pl) (hr : r.head? = some .comma ∨ r.head? = some .semi) :
    initVar W t (flat i ++ r) = some (img 0 (size t') pl, t', r) := by
  have hnl : NoLit r := by
    intro w s e
    rw [e] at hr
    rcases hr with hr | hr <;> cases hr
  suffices hh : ∃ out t1, initVar W t (flat i ++ r) = some (out, t1, r) by
    obtain ⟨out, t1, e⟩ := hh
    obtain ⟨i2, pl2, a1, _, a2, _, a3, _⟩ := c38_data W t _ out t1 r hw e
    obtain ⟨rfl, _⟩ := flat_inj i i2 r r hnl hnl a1
    obtain ⟨rfl, rfl⟩ := a2.unique hm
    rw [e, a3]
  have hend : ∀ (x : List Cell × Ty), (if r.head? = some .comma ∨ r.head? = some .semi then some (x.1, x.2, r) else none) = some (x.1, x.2, r) := fun x => if_pos hr
  cases t with
  | sc n k =>
    cases hm with
    | known a1 a2 =>
      rw [sub] at a2
      obtain ⟨v, h1, h⟩ := Option.bind_eq_some_iff.mp a2
      obtain ⟨c, h2, h⟩ := Option.bind_eq_some_iff.mp h
      refine ⟨c, .sc n k, ?_⟩
      unfold initVar
      dsimp only
      rw [init, scalar_complete h1 h2 hnl]
      exact hend (c, .sc n k)
  | su u sz ms =>
    cases hm with
    | known a1 a2 =>
      cases i with
      | ex _ _ => cases ht
      | lit _ _ _ => cases ht
      | br l tc =>
        rw [sub] at a2
        rcases aggr_cases a2 with ⟨m, tc1, e, hm, hg, _⟩ | ⟨hnb, _⟩
        · cases e
          rw [WFTop] at hw
          · rw [WF] at hw
            cases l with
            | nil => exact absurd rfl hm
            | cons j l =>
              obtain ⟨_, _, b3⟩ := (mem_complete W u sz ms 0 hw.2).1 true 0 j l pl [] (by simpa [plain] using hp) hw.1 hg
              obtain ⟨out, ofs', r', d1, d2, d3⟩ := b3 tc r
              have d4 : r' = .rb :: r := d3 rfl
              subst d4
              refine ⟨out ++ zeros (sz - ofs'), .su u sz ms, ?_⟩
              have hto : opened (flat (.br (j :: l) tc) ++ r) = (true, flatL (j :: l) ++ fin tc r) := by
                simp [flat, opened, fin]
              have hi : init W (.su u sz ms) (flat (.br (j :: l) tc) ++ r) = some (out ++ zeros (sz - ofs'), r) := by
                rw [init, hto]
                dsimp only
                rw [d1, Option.bind_some]
                dsimp only
                rw [if_neg (by omega)]
                simp [close]
              unfold initVar
              dsimp only
              rw [if_pos (by simp [flat]), hi]
              exact hend (out ++ zeros (sz - ofs'), .su u sz ms)
          · intro n e h; cases h
        · exact absurd rfl (hnb l tc)
  | arr n e =>
    rw [WFTop] at hw
    obtain ⟨hacc, hpos⟩ := init_complete W _ hw
    -- a string
    have str : ∀ s, strOf (kind e) i = some s → (n ≠ 0 → s.length ≤ n) → ∃ out t1, initVar W (.arr n e) (flat i ++ r) = some (out, t1, r) := by
      intro s hs hn
      obtain ⟨out, h1⟩ := str_complete (f := fun ts => init W e ts) (sz := size e) hs hn hnl
      have hhead : (flat i ++ r).head? = some .lb ∨ strStart (kind e) (flat i ++ r) = true := by
        cases i with
        | br l tc => left; simp [flat]
        | ex l v => cases hs
        | lit w p ps =>
          right
          rw [strOf] at hs
          split at hs
          · rename_i hk
            simp [flat, strStart, hk]
          · cases hs
      refine ⟨out, .arr (if n = 0 then s.length + 1 else n) e, ?_⟩
      unfold initVar
      dsimp only
      rw [if_pos hhead, h1]
      exact hend (out, .arr (if n = 0 then s.length + 1 else n) e)
    -- a list
    have list : ∀ m p, 0 < m → (n ≠ 0 → m = n) → strOf (kind e) i = none → arrOf (fun o l => sub W e o l) m (size e) (kind e) 0 [i] = some (p, []) → ∃ out t1, initVar W (.arr n e) (flat i ++ r) = some (out, t1, r) := by
      intro m p hm0 hn hs ha
      rw [arrOf, hs] at ha
      dsimp only at ha
      split at ha
      · cases ha
      rename_i hb
      cases i with
      | ex _ _ => cases ht
      | lit _ _ _ =>
        rw [topOk, hs] at ht
        cases ht
      | br l tc =>
        rcases aggr_cases ha with ⟨q, tc1, e', hq, hg, _⟩ | ⟨hnb, _⟩
        · cases e'
          obtain ⟨out, c, h1⟩ := list_complete (n := n) hacc hq (by simpa [plain] using hp) (by simpa using hb) hm0 hn hg r
          refine ⟨out, .arr c e, ?_⟩
          unfold initVar
          dsimp only
          rw [if_pos (Or.inl (by simp [flat])), h1]
          exact hend (out, .arr c e)
        · exact absurd rfl (hnb l tc)
    cases hm with
    | known a1 a2 =>
      have hn : n ≠ 0 := by
        intro hn
        subst hn
        exact a1 (by rw [size, Nat.zero_mul])
      rw [sub] at a2
      cases hs : strOf (kind e) i with
      | some s =>
        rw [arrOf, hs] at a2
        dsimp only at a2
        split at a2
        · rename_i hlen
          exact str s hs fun _ => hlen
        · cases a2
      | none => exact list n pl (Nat.pos_of_ne_zero hn) (fun _ => rfl) hs a2
    | @string _ _ s a => exact str s a (fun h => absurd rfl h)
    | @list _ _ m _ a a1 a2 =>
      rw [sub] at a1
      exact list (m + 1) pl (by omega) (fun h => absurd rfl h) a a1

/-- **C38** The types that declarations lay out (C22) are those of `c38_data`, with the sizes of C22. -/
theorem c38_types (W : Nat) (hW : W = 2 ∨ W = 4) (t : Ty) (t' : Layout.Ty) (h : Laid W t t') (ho : t'.Ok W) (hc : t'.Complete) : WFTop t ∧ size t = t'.size W := by
  obtain ⟨a, b⟩ := laid_wf W hW t t' h ho hc
  refine ⟨?_, b⟩
  cases t with
  | arr n e => rw [WF] at a; exact a.2
  | _ => exact a

/-- The language allows a comma before the closing brace around the initialiser of a scalar or around a string (6.7.8p1); it is refused. -/
theorem c38_comma_defect :
    initVar 4 (.sc 4 none) [.lb, .ex none (.int 1), .comma, .rb, .semi] = none ∧
    initVar 4 (.arr 0 (.sc 1 (some false))) [.lb, .lit false [97], .comma, .rb, .semi] = none ∧
    (initVar 4 (.arr 0 (.sc 4 none)) [.lb, .ex none (.int 1), .comma, .rb, .semi]).isSome = true := by
  decide +kernel

/-! ## examples -/

/-- `struct { char c; int a[2]; }` with 4-byte words -/
def exTy : Ty := .su false 12 (.cons 0 (.sc 1 (some false)) (.cons 4 (.arr 2 (.sc 4 none)) .nil))

/-- `= { 1, 2, 3, 4 }` for an array of unknown length: braces around the structures are left out, and the rest of the second one is zero -/
example : initVar 4 (.arr 0 exTy) [.lb, .ex none (.int 1), .comma, .ex none (.int 2), .comma, .ex none (.int (-3)), .comma, .ex none (.int 4), .comma, .rb, .semi] =
    some ([.b 1, .b 0, .b 0, .b 0, .b 2, .b 0, .b 0, .b 0, .b 253, .b 255, .b 255, .b 255,
           .b 4, .b 0, .b 0, .b 0, .b 0, .b 0, .b 0, .b 0, .b 0, .b 0, .b 0, .b 0], .arr 2 exTy, [.semi]) := by
  rfl

example : WFTop (.arr 0 exTy) := by simp [WFTop, exTy, WF, WFs, size]

/-- a union, a string in an array of characters, and the address of a string in a pointer -/
example : (initVar 4 (.su false 12 (.cons 0 (.su true 4 (.cons 0 (.sc 2 none) (.cons 0 (.sc 4 none) .nil))) (.cons 4 (.arr 4 (.sc 1 (some false))) (.cons 8 (.sc 4 none) .nil))))
    [.lb, .lb, .ex none (.int 258), .rb, .comma, .lit false [104], .lit false [105], .comma, .lit false [33], .rb, .semi]).map (fun a => a.1) =
    some [.b 2, .b 1, .b 0, .b 0, .b 104, .b 105, .b 0, .b 0, .a (.str false [33]) 0 0, .a (.str false [33]) 0 1, .a (.str false [33]) 0 2, .a (.str false [33]) 0 3] := by decide +kernel

/-- too many initialisers, and an address in a character, are refused -/
example : (initVar 4 (.arr 1 (.sc 4 none)) [.lb, .ex none (.int 1), .comma, .ex none (.int 2), .rb, .semi]).isNone = true ∧
    (initVar 4 (.sc 1 none) [.ex none (.addr (.name 0) 0), .semi]).isNone = true := by decide +kernel

/-- the laid-out type of `exTy` -/
example : Laid 4 exTy (.su false (.cons 4 .char (.cons 4 (.arr 2 .word) .nil))) := by
  simp [Laid, LaidMs, exTy, Layout.Members.offsets, Layout.Ty.align, Layout.Ty.size, Layout.roundUp, Layout.Members.stop, Layout.Members.align]

/-- an initialiser that meets the hypotheses of `c38_accepts` -/
example : Means 4 (.arr 0 exTy) (.br [.ex none (.int 1), .ex none (.int 2), .ex none (.int 3), .br [.ex none (.int 4)] true] false) (.arr 2 exTy)
    [(0, bytesOf 1 1), (4, bytesOf 4 2), (8, bytesOf 4 3), (12, bytesOf 1 4)] := by
  refine .list (n := 1) rfl ?_ ?_ <;> rfl

end Smlr.Init
