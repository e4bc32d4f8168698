import Verif.Nhash.Model
set_option autoImplicit false
/-! The dictionary that the table should be, and histories of calls. -/
namespace Smlr.Nhash

/-- a call; for `put` the item, the memory that `getmem` would give out, and what is in the item before -/
inductive Op
  | get (nm : Name)
  | put (nm : Name) (item fresh : Nat) (junk : Node)
  | del (nm : Name)
  | scan

/-- what the caller sees: the pointer returned; the number returned and the items given to `deldata`; the items given to `action` -/
inductive Obs
  | ptr (q : Nat)
  | ret (r : Nat) (gone : List Nat)
  | seen (ps : List Nat)

abbrev Dict := List (Name × Nat)

def Dict.lookup (d : Dict) (nm : Name) : Option Nat := (d.find? (fun x => x.1 = nm)).map Prod.snd

/-- what should be seen -/
inductive Step : Dict → Op → Obs → Dict → Prop
  | get_none (d : Dict) (nm : Name) (h : d.lookup nm = none) : Step d (.get nm) (.ptr 0) d
  | get_some (d : Dict) (nm : Name) (q : Nat) (h : d.lookup nm = some q) : Step d (.get nm) (.ptr q) d
  | put_new (d : Dict) (nm : Name) (item fresh : Nat) (junk : Node) (h : d.lookup nm = none) : Step d (.put nm item fresh junk) (.ptr 0) (d ++ [(nm, item)])
  | put_old (d : Dict) (nm : Name) (item fresh q : Nat) (junk : Node) (h : d.lookup nm = some q) : Step d (.put nm item fresh junk) (.ptr q) d
  | del_none (d : Dict) (nm : Name) (h : d.lookup nm = none) : Step d (.del nm) (.ret 0 []) d
  | del_some (d : Dict) (nm : Name) (q : Nat) (h : d.lookup nm = some q) : Step d (.del nm) (.ret 1 [q]) (d.filter (fun x => x.1 ≠ nm))
  | scan (d : Dict) (ps : List Nat) (h : ps.Perm (d.map Prod.snd)) : Step d .scan (.seen ps) d

inductive Steps : Dict → List Op → List Obs → Dict → Prop
  | nil (d : Dict) : Steps d [] [] d
  | cons (d d1 d2 : Dict) (op : Op) (o : Obs) (ops : List Op) (os : List Obs) (h : Step d op o d1) (hs : Steps d1 ops os d2) : Steps d (op :: ops) (o :: os) d2

/-- the same call to the model; the caller allocates the item before `put` -/
def exec (red : Bool) (fuel : Nat) (t : Tab) : Op → Option (Obs × Tab)
  | .get nm => (get red fuel t nm).map fun q => (.ptr q, t)
  | .put nm item fresh junk => (put red fuel { t with heap := t.heap.set item (some junk) } item nm fresh).map fun r => (.ptr r.1, r.2)
  | .del nm => (del red fuel t nm).map fun r => (.ret r.1 (r.2.log.drop t.log.length), r.2)
  | .scan => (scan red false fuel t).map fun t' => (.seen (t'.log.drop t.log.length), t')

def hist (red : Bool) (fuel : Nat) (t : Tab) : List Op → Option (List Obs × Tab)
  | [] => some ([], t)
  | op :: ops => (exec red fuel t op).bind fun r => (hist red fuel r.2 ops).map fun s => (r.1 :: s.1, s.2)

/-- the allocator gives out memory that is not in use, and not `NULL` -/
def okOp (t : Tab) : Op → Prop
  | .put _ item fresh _ => item ≠ 0 ∧ (t.heap item).isNone = true ∧ fresh ≠ 0 ∧ fresh ≠ item ∧ (t.heap fresh).isNone = true
  | _ => True

def Valid (red : Bool) (fuel : Nat) : Tab → List Op → Prop
  | _, [] => True
  | t, op :: ops => okOp t op ∧ (exec red fuel t op).elim True fun r => Valid red fuel r.2 ops

instance (t : Tab) (op : Op) : Decidable (okOp t op) := by
  cases op <;> (unfold okOp; infer_instance)

instance Valid.dec (red : Bool) (fuel : Nat) : (t : Tab) → (ops : List Op) → Decidable (Valid red fuel t ops)
  | _, [] => isTrue trivial
  | t, op :: ops =>
    have : Decidable ((exec red fuel t op).elim True fun r => Valid red fuel r.2 ops) :=
      match exec red fuel t op with
      | none => isTrue trivial
      | some r => Valid.dec red fuel r.2 ops
    inferInstanceAs (Decidable (_ ∧ _))

end Smlr.Nhash
