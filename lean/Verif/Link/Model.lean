set_option autoImplicit false
/-! Model of symbol resolution in the linker: `FindSymbolByName` (smlrl.c:1269-1329), `DeferSymbol` (1258-1267), `FindAllSymbols` (1397-1436),
`CheckDuplicates` (1331-1395), `FindSymbolAddress` (1615-1667) and their use in `main` (3962-3964). -/
namespace Smlr.Link

abbrev Name := List UInt8

/-- an object module (`tElfMeta`): its global symbols in the order of its symbol tables, those with a section (with the address they get) and those without.  Nameless symbols are
left out, as the code skips them -/
structure Obj where
  defs : List (Name × Nat)
  undefs : List Name

inductive Err
  /-- "Symbol '%s' not found" -/
  | undefined (n : Name)
  /-- "Symbol '%s' defined multiple times" -/
  | duplicate (n : Name)
  /-- the model's loop bound -/
  | fuel
  deriving DecidableEq

/-- the `Needed` flags and `pDeferredSyms` -/
structure St where
  needed : Nat → Bool
  deferred : List Name

def str (s : String) : Name := s.toList.map (fun c => UInt8.ofNat c.toNat)

/-- smlrl.c:1318-1323 -/
def deferrable (n : Name) : Bool :=
  [str "__start_allcode__", str "__stop_allcode__", str "__start_alldata__", str "__stop_alldata__"].contains n ||
  ((str "__start_").isPrefixOf n && n.length > 8) || ((str "__stop_").isPrefixOf n && n.length > 7)

/-- does a module export the name? smlrl.c:1281-1302 -/
def defines (o : Obj) (n : Name) : Bool := o.defs.any (fun d => d.1 = n)

/-- the first module from `i` on that exports the name -/
def firstDef (n : Name) : List Obj → Nat → Option Nat
  | [], _ => none
  | o :: os, i => if defines o n then some i else firstDef n os (i + 1)

/-- `DeferSymbol` -/
def defer (st : St) (n : Name) : St := if st.deferred.contains n then st else { st with deferred := st.deferred ++ [n] }

/-- `FindSymbolByName`: new state and `includedObj` -/
def findByName (objs : List Obj) (st : St) (n : Name) : Except Err (St × Bool) :=
  match firstDef n objs 0 with
  | some i =>
    if st.needed i then .ok (st, false)
    else .ok ({ st with needed := fun j => if j = i then true else st.needed j }, true)
  | none => if deferrable n then .ok (defer st n, false) else .error (.undefined n)

/-- the loop over the imports of a module, smlrl.c:1413-1432 -/
def imports (objs : List Obj) : List Name → St → Bool → Except Err (St × Bool)
  | [], st, inc => .ok (st, inc)
  | n :: ns, st, inc =>
    match findByName objs st n with
    | .error e => .error e
    | .ok (st, b) => imports objs ns st (inc || b)

/-- one round over the modules from `i` on, smlrl.c:1405-1434 -/
def round (objs : List Obj) : List Obj → Nat → St → Bool → Except Err (St × Bool)
  | [], _, st, inc => .ok (st, inc)
  | o :: os, i, st, inc =>
    if st.needed i then
      match imports objs o.undefs st inc with
      | .error e => .error e
      | .ok (st, inc) => round objs os (i + 1) st inc
    else round objs os (i + 1) st inc

/-- `FindAllSymbols` -/
def findAll (objs : List Obj) : Nat → St → Except Err St
  | 0, _ => .error .fuel
  | fuel + 1, st =>
    match round objs objs 0 st false with
    | .error e => .error e
    | .ok (st, inc) => if inc then findAll objs fuel st else .ok st

/-- `CheckDuplicates` for one exported name of module `i`, over the modules from `j` on, smlrl.c:1359-1389 -/
def clash (st : St) (n : Name) : List Obj → Nat → Bool
  | [], _ => false
  | o :: os, j => (st.needed j && defines o n) || clash st n os (j + 1)

/-- `CheckDuplicates` -/
def duplicates (st : St) : List Obj → Nat → Option Name
  | [], _ => none
  | o :: os, i =>
    match (if st.needed i then o.defs.find? (fun d => clash st d.1 os (i + 1)) else none) with
    | some d => some d.1
    | none => duplicates st os (i + 1)

/-- smlrl.c:3962-3964 -/
def link (objs : List Obj) (entry : Name) : Except Err St :=
  match findByName objs ⟨fun _ => false, []⟩ entry with
  | .error e => .error e
  | .ok (st, _) =>
    match findAll objs (objs.length + 1) st with
    | .error e => .error e
    | .ok st =>
      match duplicates st objs 0 with
      | some n => .error (.duplicate n)
      | none => .ok st

/-- the part of `FindSymbolAddress` that searches the modules, smlrl.c:1629-1663 -/
def address (st : St) (n : Name) : List Obj → Nat → Option Nat
  | [], _ => none
  | o :: os, i =>
    if st.needed i then
      match o.defs.find? (fun d => d.1 = n) with
      | some d => some d.2
      | none => address st n os (i + 1)
    else address st n os (i + 1)

end Smlr.Link
