set_option autoImplicit false
/-! Model of ucpp/nhash.c: the hash table of the preprocessor, as binary trees of nodes in memory linked by pointers.  The block that `ident` points to is made part of the node.
`none` as a result stands for an access through a null or dangling pointer, or for a loop that does not end within `fuel` rounds. -/
namespace Smlr.Nhash

/-- a C string without its NUL -/
abbrev Name := List UInt8

/-- `hash_string`, nhash.c:44-62, for a 32-bit `unsigned` -/
def hashStep (h : UInt32) (c : UInt8) : UInt32 :=
  let h := (h <<< 4) + c.toUInt32
  let g := h &&& 0xF0000000
  let h := h ^^^ (g >>> 24)
  h &&& ~~~g

def hashString (s : Name) : UInt32 := s.foldl hashStep 0

/-- what is behind the hash value in the block of `ident`: a name (`make_ident`, nhash.c:194-202), or the pointer to the first true item (`make_fake_ident`, 207-214) -/
inductive Rest
  | name (s : Name)
  | ptr (p : Nat)

/-- `hash_item_header` (nhash.h:37-40) with the block of `ident`; `word` is `*(unsigned *)ident`; 0 is `NULL` -/
structure Node where
  left : Nat
  right : Nat
  word : UInt32
  rest : Rest

abbrev Heap := Nat → Option Node

def Heap.set (h : Heap) (p : Nat) (v : Option Node) : Heap := fun q => if q = p then v else h q

/-- a table with the memory; `tree i` is `htt->tree[i]`; `log` are the items given to `deldata` or `action` so far -/
structure Tab where
  tree : Nat → Nat
  heap : Heap
  log : List Nat

/-- access through a pointer -/
def load (h : Heap) (p : Nat) : Option Node := if p = 0 then none else h p

def setLeft (h : Heap) (p x : Nat) : Option Heap := (load h p).map fun nd => h.set p (some { nd with left := x })
def setRight (h : Heap) (p x : Nat) : Option Heap := (load h p).map fun nd => h.set p (some { nd with right := x })

/-- the index in `TREE(u)`, nhash.c:119-120; `HTT_NUM_TREES` is 128 -/
def index (reduced : Bool) (u : UInt32) : Nat := if reduced then (u &&& 1).toNat else (u &&& 127).toNat

/-- `u & ~1U` -/
def keyOf (u : UInt32) : UInt32 := u &&& ~~~1

/-- the loop of `find_node`, nhash.c:132-159: the node, its father, `leftson` -/
def findNode (h : Heap) (u : UInt32) : Nat → Nat → Nat → Bool → Option (Nat × Nat × Bool)
  | 0, _, _, _ => none
  | n + 1, node, f, ls =>
    if node = 0 then some (0, f, ls)
    else do
      let nd ← load h node
      let w := keyOf nd.word
      if u = w then some (node, f, ls)
      else if u < w then findNode h u n nd.left node true
      else findNode h u n nd.right node false

/-- `HASH_ITEM_NAME` -/
def nameOf (h : Heap) (p : Nat) : Option Name := do
  let nd ← load h p
  match nd.rest with
  | .name s => some s
  | .ptr _ => none

/-- `*(hash_item_header **)(node->ident + PTR_SHIFT)` -/
def headOf (nd : Node) : Option Nat :=
  match nd.rest with
  | .name _ => none
  | .ptr p => some p

/-- the loops over the list of a fake node (nhash.c:172-175, 268-272, 345-349): the node with this name or `NULL`, and the node before it -/
def findName (h : Heap) (nm : Name) : Nat → Nat → Nat → Option (Nat × Nat)
  | 0, _, _ => none
  | n + 1, node, pnode =>
    if node = 0 then some (0, pnode)
    else do
      let s ← nameOf h node
      if s = nm then some (node, pnode)
      else do
        let nd ← load h node
        findName h nm n nd.left node

/-- `internal_get`, nhash.c:161-177 -/
def get (reduced : Bool) (fuel : Nat) (t : Tab) (nm : Name) : Option Nat := do
  let u := hashString nm
  let r ← findNode t.heap (keyOf u) fuel (t.tree (index reduced u)) 0 false
  if r.1 = 0 then some 0
  else do
    let nd ← load t.heap r.1
    if nd.word &&& 1 = 0 then do
      let s ← nameOf t.heap r.1
      some (if s = nm then r.1 else 0)
    else do
      let head ← headOf nd
      let q ← findName t.heap nm fuel head 0
      some q.1

/-- make `x` the son of the father, or the root (nhash.c:237-243, 258-264, 306-312, 387-393) -/
def link (reduced : Bool) (t : Tab) (u : UInt32) (father : Nat) (ls : Bool) (x : Nat) : Option Tab :=
  if father = 0 then some { t with tree := fun i => if i = index reduced u then x else t.tree i }
  else if ls then (setLeft t.heap father x).map fun h => { t with heap := h }
  else (setRight t.heap father x).map fun h => { t with heap := h }

/-- `internal_put`, nhash.c:226-277; `fresh` is what `getmem` returns at line 250.  The item is memory of the caller -/
def put (reduced : Bool) (fuel : Nat) (t : Tab) (item : Nat) (nm : Name) (fresh : Nat) : Option (Nat × Tab) := do
  let u := hashString nm
  let r ← findNode t.heap (keyOf u) fuel (t.tree (index reduced u)) 0 false
  let new : Node := ⟨0, 0, keyOf u, .name nm⟩
  if r.1 = 0 then do
    let _ ← load t.heap item
    let t ← link reduced { t with heap := t.heap.set item (some new) } u r.2.1 r.2.2 item
    some (0, t)
  else do
    let nd ← load t.heap r.1
    if nd.word &&& 1 = 0 then do
      let s ← nameOf t.heap r.1
      if s = nm then some (r.1, t)
      else do
        let h := t.heap.set fresh (some ⟨nd.left, nd.right, u ||| 1, .ptr r.1⟩)
        let h ← setLeft h r.1 item
        let h ← setRight h r.1 0
        let _ ← load h item
        let h := h.set item (some new)
        let t ← link reduced { t with heap := h } u r.2.1 r.2.2 fresh
        some (0, t)
    else do
      let head ← headOf nd
      let q ← findName t.heap nm fuel head 0
      if q.1 = 0 then do
        let _ ← load t.heap item
        let h ← setLeft (t.heap.set item (some new)) q.2 item
        some (0, { t with heap := h })
      else some (q.1, t)

/-- `shrink_node`, nhash.c:300-315 -/
def shrinkNode (reduced : Bool) (t : Tab) (fnode node father : Nat) (ls : Bool) (u : UInt32) : Option Tab := do
  let f ← load t.heap fnode
  let h ← setLeft t.heap node f.left
  let h ← setRight h node f.right
  let t ← link reduced { t with heap := h } u father ls node
  some { t with heap := t.heap.set fnode none }

/-- the loop of nhash.c:371-372: `znode` and `pnode` -/
def rightmost (h : Heap) : Nat → Nat → Nat → Option (Nat × Nat)
  | 0, _, _ => none
  | n + 1, z, p => do
    let nd ← load h p
    if nd.right = 0 then some (z, p) else rightmost h n p nd.right

/-- the loop of nhash.c:379-380 -/
def leftmost (h : Heap) : Nat → Nat → Nat → Option (Nat × Nat)
  | 0, _, _ => none
  | n + 1, z, p => do
    let nd ← load h p
    if nd.left = 0 then some (z, p) else leftmost h n p nd.left

/-- the node that takes the place of a deleted one, nhash.c:370-386 -/
def promote (fuel : Nat) (h : Heap) (node : Nat) : Option (Nat × Heap) := do
  let nd ← load h node
  if nd.left ≠ 0 then do
    let r ← rightmost h fuel node nd.left
    let h ← (if r.1 ≠ node then do
        let p ← load h r.2
        let h ← setRight h r.1 p.left
        setLeft h r.2 nd.left
      else some h)
    let h ← setRight h r.2 nd.right
    some (r.2, h)
  else if nd.right ≠ 0 then do
    let r ← leftmost h fuel node nd.right
    let h ← (if r.1 ≠ node then do
        let p ← load h r.2
        let h ← setLeft h r.1 p.right
        setRight h r.2 nd.right
      else some h)
    let h ← setLeft h r.2 nd.left
    some (r.2, h)
  else some (0, h)

/-- `internal_del`, nhash.c:330-399.  `deldata` frees the item -/
def del (reduced : Bool) (fuel : Nat) (t : Tab) (nm : Name) : Option (Nat × Tab) := do
  let u := hashString nm
  let r ← findNode t.heap (keyOf u) fuel (t.tree (index reduced u)) 0 false
  if r.1 = 0 then some (0, t)
  else do
    let nd ← load t.heap r.1
    if nd.word &&& 1 ≠ 0 then do
      let head ← headOf nd
      let q ← findName t.heap nm fuel head 0
      if q.1 = 0 then some (0, t)
      else do
        let it ← load t.heap q.1
        let t ← (if q.2 = 0 then do
            let h := t.heap.set r.1 (some { nd with rest := .ptr it.left })
            let nx ← load h it.left
            if nx.left = 0 then shrinkNode reduced { t with heap := h } r.1 it.left r.2.1 r.2.2 u
            else some { t with heap := h }
          else do
            let h ← setLeft t.heap q.2 it.left
            if it.left = 0 ∧ head = q.2 then shrinkNode reduced { t with heap := h } r.1 q.2 r.2.1 r.2.2 u
            else some { t with heap := h })
        let _ ← load t.heap q.1
        some (1, { t with heap := t.heap.set q.1 none, log := t.log ++ [q.1] })
    else do
      let s ← nameOf t.heap r.1
      if s ≠ nm then some (0, t)
      else do
        let x ← promote fuel t.heap r.1
        let t ← link reduced { t with heap := x.2 } u r.2.1 r.2.2 x.1
        let _ ← load t.heap r.1
        some (1, { t with heap := t.heap.set r.1 none, log := t.log ++ [r.1] })

/-- `action(p)`, then `freemem` of its identifier if `wipe`: `HTT_kill` has `deldata` as the action -/
def visit (wipe : Bool) (t : Tab) (p : Nat) : Option Tab := do
  let _ ← load t.heap p
  some { t with heap := if wipe then t.heap.set p none else t.heap, log := t.log ++ [p] }

/-- the loop over the items of a fake node in `scan_node`, nhash.c:429-436 -/
def scanList (wipe : Bool) : Nat → Tab → Nat → Option Tab
  | 0, _, _ => none
  | n + 1, t, p =>
    if p = 0 then some t
    else do
      let nd ← load t.heap p
      let t ← visit wipe t p
      scanList wipe n t nd.left

/-- `scan_node`, nhash.c:418-447 -/
def scanNode (wipe : Bool) : Nat → Tab → Nat → Option Tab
  | 0, _, _ => none
  | n + 1, t, p =>
    if p = 0 then some t
    else do
      let nd ← load t.heap p
      let t ← scanNode wipe n t nd.left
      let nd ← load t.heap p
      let t ← scanNode wipe n t nd.right
      let nd ← load t.heap p
      if nd.word &&& 1 ≠ 0 then do
        let head ← headOf nd
        let t ← scanList wipe n t head
        let _ ← load t.heap p
        some (if wipe then { t with heap := t.heap.set p none } else t)
      else visit wipe t p

/-- `HTT_scan`, `HTT2_scan`, `HTT_kill`, `HTT2_kill` (nhash.c:450-481): the trees from `i` on -/
def scanTrees (wipe : Bool) (fuel : Nat) : Nat → Nat → Tab → Option Tab
  | 0, _, t => some t
  | k + 1, i, t => do
    let t ← scanNode wipe fuel t (t.tree i)
    scanTrees wipe fuel k (i + 1) t

def numTrees (reduced : Bool) : Nat := if reduced then 2 else 128

def scan (reduced wipe : Bool) (fuel : Nat) (t : Tab) : Option Tab := scanTrees wipe fuel (numTrees reduced) 0 t

/-- `internal_init`, nhash.c:89-101 -/
def init (h : Heap) : Tab := ⟨fun _ => 0, h, []⟩

end Smlr.Nhash
