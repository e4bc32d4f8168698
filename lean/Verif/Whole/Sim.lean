import Verif.Whole.Model
set_option autoImplicit false
/-! The layout depends on nothing but names, flags, alignments and sizes of the sections. -/
namespace Smlr.Whole
open Smlr.Sect

/-- sections that differ in their contents only -/
structure Shape (s t : Sec) : Prop where
  name : s.name = t.name
  alloc : s.alloc = t.alloc
  attrs : s.attrs = t.attrs
  align : s.align = t.align
  size : s.size = t.size

/-- layouts that differ in the contents of the sections and of the file only -/
structure SameSt (a b : Sect.St) : Prop where
  startOfs : a.startOfs = b.startOfs
  ofs : a.ofs = b.ofs
  written : a.written = b.written
  addrs : a.placed.map Place.addr = b.placed.map Place.addr
  span : a.span = b.span
  spans : a.spans = b.spans
  code : a.code = b.code
  data : a.data = b.data

def Both : Except Sect.Err Sect.St → Except Sect.Err Sect.St → Prop
  | .ok a, .ok b => SameSt a b
  | .error e, .error e' => e = e'
  | _, _ => False

theorem both_pad (w w' : Bool) (f : UInt8) (al : Nat) (a b : Sect.St) (h : SameSt a b) : Both (pad w f al a) (pad w' f al b) := by
  unfold pad
  split
  · simp only [h.ofs]
    split
    · rfl
    · exact ⟨h.startOfs, rfl, h.written, h.addrs, h.span, h.spans, h.code, h.data⟩
  · exact h

theorem same_widen (isData : Bool) (x y : Nat) (a b : Sect.St) (h : SameSt a b) : SameSt (widen isData x y a) (widen isData x y b) := by
  unfold widen
  refine ⟨h.startOfs, h.ofs, h.written, h.addrs, ?_, h.spans, ?_, ?_⟩
  · simp only [h.span]
  · simp only [h.span, h.code, h.data]
  · simp only [h.span, h.code, h.data]

theorem both_put (c : Cfg) (isData : Bool) (s t : Sec) (hst : Shape s t) (a b : Sect.St) (h : SameSt a b) : Both (put c isData s a) (put c isData t b) := by
  unfold put
  simp only [h.ofs, hst.size]
  split
  · rfl
  · split
    · rfl
    · have hw := same_widen isData b.ofs ((b.ofs + t.size) % 2 ^ 32) a b h
      exact ⟨hw.startOfs, rfl, hw.written, by simp only [List.map_append, List.map_cons, List.map_nil, h.addrs], hw.span, hw.spans, hw.code, hw.data⟩

theorem both_place (c : Cfg) (isData : Bool) (s t : Sec) (hst : Shape s t) (a b : Sect.St) (h : SameSt a b) : Both (place c isData s a) (place c isData t b) := by
  unfold place
  have e : effAlign c.fmt isData s = effAlign c.fmt isData t := by
    unfold effAlign
    rw [hst.align, hst.name]
  rw [e]
  cases effAlign c.fmt isData t with
  | error e => rfl
  | ok al =>
    simp only
    have hp := both_pad (!s.attrs.nobits || !c.useBss) (!t.attrs.nobits || !c.useBss) (fillByte isData) al a b h
    cases h1 : pad (!s.attrs.nobits || !c.useBss) (fillByte isData) al a with
    | error e =>
      cases h2 : pad (!t.attrs.nobits || !c.useBss) (fillByte isData) al b with
      | error e' => rw [h1, h2] at hp; exact hp
      | ok y => rw [h1, h2] at hp; exact hp.elim
    | ok x =>
      cases h2 : pad (!t.attrs.nobits || !c.useBss) (fillByte isData) al b with
      | error e' => rw [h1, h2] at hp; exact hp.elim
      | ok y => rw [h1, h2] at hp; exact both_put c isData s t hst x y hp

theorem both_placeAll {α : Type} (c : Cfg) (isData : Bool) (f g : α → Sec) (xs : List α) (hx : ∀ x ∈ xs, Shape (f x) (g x)) (m : List Sec) (a b : Sect.St) (h : SameSt a b) :
    Both (placeAll c isData (xs.map f ++ m) a) (placeAll c isData (xs.map g ++ m) b) := by
  induction xs generalizing a b with
  | nil =>
    simp only [List.map_nil, List.nil_append]
    induction m generalizing a b with
    | nil => exact h
    | cons s m ih =>
      unfold placeAll
      have hp := both_place c isData s s ⟨rfl, rfl, rfl, rfl, rfl⟩ a b h
      cases h1 : place c isData s a with
      | error e =>
        cases h2 : place c isData s b with
        | error e' => rw [h1, h2] at hp; exact hp
        | ok y => rw [h1, h2] at hp; exact hp.elim
      | ok x =>
        cases h2 : place c isData s b with
        | error e' => rw [h1, h2] at hp; exact hp.elim
        | ok y => rw [h1, h2] at hp; exact ih x y hp
  | cons s xs ih =>
    simp only [List.map_cons, List.cons_append]
    unfold placeAll
    have hp := both_place c isData (f s) (g s) (hx s (by simp)) a b h
    cases h1 : place c isData (f s) a with
    | error e =>
      cases h2 : place c isData (g s) b with
      | error e' => rw [h1, h2] at hp; exact hp
      | ok y => rw [h1, h2] at hp; exact hp.elim
    | ok x =>
      cases h2 : place c isData (g s) b with
      | error e' => rw [h1, h2] at hp; exact hp.elim
      | ok y => rw [h1, h2] at hp; exact ih (fun x hx' => hx x (by simp [hx'])) x y hp

theorem filter_shape {α : Type} (f g : α → Sec) (xs : List α) (hx : ∀ x ∈ xs, Shape (f x) (g x)) (n : Sect.Name) :
    (xs.map g).filter (fun s => s.name = n) = (xs.filter (fun x => (f x).name = n)).map g := by
  rw [List.filter_map]
  congr 1
  apply List.filter_congr
  intro x h
  simp only [Function.comp, (hx x h).name]

theorem members_shape {α : Type} (c : Cfg) (f g : α → Sec) (xs : List α) (hx : ∀ x ∈ xs, Shape (f x) (g x)) (d : Desc) :
    ∃ (ys : List α) (m : List Sec), (∀ y ∈ ys, y ∈ xs) ∧ members c (xs.map f) d = ys.map f ++ m ∧ members c (xs.map g) d = ys.map g ++ m := by
  unfold members
  rw [filter_shape f g xs hx d.name, filter_shape f f xs (fun _ _ => ⟨rfl, rfl, rfl, rfl, rfl⟩) d.name]
  exact ⟨xs.filter (fun x => (f x).name = d.name), _, fun y hy => (List.mem_filter.1 hy).1, rfl, rfl⟩

theorem same_switch (n : Bool) (a b : Sect.St) (h : SameSt a b) : SameSt (switch n a) (switch n b) := by
  have e : (a.written + alignTo a.ofs 16 + 2 ^ 32 - a.startOfs) % 2 ^ 32 = (b.written + alignTo b.ofs 16 + 2 ^ 32 - b.startOfs) % 2 ^ 32 := by
    rw [h.written, h.ofs, h.startOfs]
  cases n
  · simp only [switch, Bool.false_eq_true, if_false, e]
    exact ⟨rfl, rfl, rfl, h.addrs, h.span, h.spans, h.code, h.data⟩
  · simp only [switch, if_true, e]
    exact ⟨rfl, rfl, rfl, h.addrs, h.span, h.spans, h.code, h.data⟩

theorem both_trail (c : Cfg) (d : Desc) (next : Option Desc) (a b : Sect.St) (h : SameSt a b) : Both (trail c d next a) (trail c d next b) := by
  unfold trail
  split
  · split
    · exact same_switch _ a b h
    · exact h
  · split
    · split
      · exact both_pad _ _ _ _ a b h
      · split
        · exact both_pad _ _ _ _ a b h
        · exact h
    · exact h

theorem both_loop {α : Type} (c : Cfg) (f g : α → Sec) (xs : List α) (hx : ∀ x ∈ xs, Shape (f x) (g x)) (ds : List Desc) (a b : Sect.St) (h : SameSt a b) :
    Both (loop c (xs.map f) ds a) (loop c (xs.map g) ds b) := by
  induction ds generalizing a b with
  | nil => exact h
  | cons d ds ih =>
    unfold loop
    obtain ⟨ys, m, hy, e1, e2⟩ := members_shape c f g xs hx d
    rw [e1, e2]
    have hp := both_placeAll c (!d.attrs.exec) f g ys (fun y h => hx y (hy y h)) m { a with span := (2 ^ 32 - 1, 0) } { b with span := (2 ^ 32 - 1, 0) }
      ⟨h.startOfs, h.ofs, h.written, h.addrs, rfl, h.spans, h.code, h.data⟩
    cases h1 : placeAll c (!d.attrs.exec) (ys.map f ++ m) { a with span := (2 ^ 32 - 1, 0) } with
    | error e =>
      cases h2 : placeAll c (!d.attrs.exec) (ys.map g ++ m) { b with span := (2 ^ 32 - 1, 0) } with
      | error e' => rw [h1, h2] at hp; exact hp
      | ok y => rw [h1, h2] at hp; exact hp.elim
    | ok x =>
      cases h2 : placeAll c (!d.attrs.exec) (ys.map g ++ m) { b with span := (2 ^ 32 - 1, 0) } with
      | error e' => rw [h1, h2] at hp; exact hp.elim
      | ok y =>
        rw [h1, h2] at hp
        simp only
        have hp : SameSt x y := hp
        have ht := both_trail c d ds.head? { x with spans := x.spans ++ [x.span] } { y with spans := y.spans ++ [y.span] }
          ⟨hp.startOfs, hp.ofs, hp.written, hp.addrs, hp.span, by simp only [hp.spans, hp.span], hp.code, hp.data⟩
        cases h3 : trail c d ds.head? { x with spans := x.spans ++ [x.span] } with
        | error e =>
          cases h4 : trail c d ds.head? { y with spans := y.spans ++ [y.span] } with
          | error e' => rw [h3, h4] at ht; exact ht
          | ok z => rw [h3, h4] at ht; exact ht.elim
        | ok u =>
          cases h4 : trail c d ds.head? { y with spans := y.spans ++ [y.span] } with
          | error e' => rw [h3, h4] at ht; exact ht.elim
          | ok z => rw [h3, h4] at ht; exact ih u z ht

theorem collect_shape {α : Type} (c : Cfg) (f g : α → Sec) (xs : List α) (hx : ∀ x ∈ xs, Shape (f x) (g x)) (ds : List Desc) :
    collect c (xs.map f) ds = collect c (xs.map g) ds := by
  induction xs generalizing ds with
  | nil => rfl
  | cons x xs ih =>
    have h := hx x (by simp)
    have ih' := ih (fun y hy => hx y (by simp [hy]))
    simp only [List.map_cons]
    unfold collect
    simp only [h.name, h.alloc, h.attrs, ih']

/-- the layout of sections that differ in their contents -/
theorem layout_shape {α : Type} (c : Cfg) (sort : List Desc → List Desc) (f g : α → Sec) (xs : List α) (hx : ∀ x ∈ xs, Shape (f x) (g x)) (ds ds' : List Desc) (st st' : Sect.St)
    (h : layout c sort (xs.map f) = .ok (ds, st)) (h' : layout c sort (xs.map g) = .ok (ds', st')) : ds' = ds ∧ SameSt st st' := by
  unfold layout findAll at h h'
  rw [collect_shape c f g xs hx] at h
  cases hc : collect c (xs.map g) [] with
  | error e => rw [hc] at h; cases h
  | ok l =>
    rw [hc] at h h'
    simp only at h h'
    cases hd : checkDescs (sort (addRelod c l)) with
    | error e => rw [hd] at h; cases h
    | ok l' =>
      rw [hd] at h h'
      simp only at h h'
      have hb := both_loop c f g xs hx l' ⟨c.origin, c.origin, 0, [], [], (2 ^ 32 - 1, 0), [], (2 ^ 32 - 1, 0), (2 ^ 32 - 1, 0)⟩ _ ⟨rfl, rfl, rfl, rfl, rfl, rfl, rfl, rfl⟩
      cases h1 : pass c (xs.map f) l' with
      | error e => rw [h1] at h; cases h
      | ok x =>
        cases h2 : pass c (xs.map g) l' with
        | error e => rw [h2] at h'; cases h'
        | ok y =>
          rw [h1] at h
          rw [h2] at h'
          unfold pass at h1 h2
          rw [h1, h2] at hb
          cases h
          cases h'
          exact ⟨rfl, hb⟩

end Smlr.Whole
