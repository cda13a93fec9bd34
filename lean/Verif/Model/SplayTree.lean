import Verif.Model.Basic
/-!
The splay tree of wizard/splay-tree.c. Keys and values are `void *` (naturals, 0 is NULL). A tree of
`NodeInfo` structures is modelled as an inductive tree: each node is reachable by one path, so the
pointer comparisons of the code (`n != *node`, `n == (*parent)->left`) are comparisons of positions.
Allocation succeeds; relinquishing keys and values is not modelled.
-/
namespace Wizard

/-- splay-tree.c:68-79 `NodeInfo`; `nil` is NULL. -/
inductive STree where
  | nil
  | node (l : STree) (k v : Nat) (r : STree)

/-- A parent link: the child is the left (`left = true`) or right child of the node `k`, `v` whose
other child is `sib`. -/
structure Frame where
  left : Bool
  k : Nat
  v : Nat
  sib : STree

/-- splay-tree.c:63 `MaxSplayTreeDepth`. -/
def maxSplayTreeDepth : Nat := 1024

/-- splay-tree.c:166-170 and elsewhere: the user's comparison, or that of the pointers. -/
def cmpKeys (cmp : Option (Nat → Nat → Int)) (a b : Nat) : Int :=
  match cmp with
  | some c => c a b
  | none => if b < a then 1 else if a < b then -1 else 0

/-- What a call of `Splay` leaves: `null`: the slot was empty and nothing changed; `here`, `up1`, `up2`:
the returned node is the root of the given subtree, which is now in the slot, the parent's slot, the
grandparent's slot; `bal`: the depth limit was hit, nothing changed and `balance` is set. -/
inductive SplayOut where
  | null
  | here (t : STree)
  | up1 (t : STree)
  | up2 (t : STree)
  | bal

/-- splay-tree.c:1516-1525: the single rotation of `n` (the tree `l k v r`) above its parent. -/
def zig (p : Frame) (l : STree) (k v : Nat) (r : STree) : STree :=
  if p.left then .node l k v (.node r p.k p.v p.sib)
  else .node (.node p.sib p.k p.v l) k v r

/-- splay-tree.c:1529-1562: the double rotation of `n` above its grandparent. -/
def zigzag (p g : Frame) (l : STree) (k v : Nat) (r : STree) : STree :=
  if p.left && g.left then .node l k v (.node r p.k p.v (.node p.sib g.k g.v g.sib))
  else if !p.left && !g.left then .node (.node (.node g.sib g.k g.v p.sib) p.k p.v l) k v r
  else if p.left then .node (.node g.sib g.k g.v l) k v (.node r p.k p.v p.sib)
  else .node (.node p.sib p.k p.v l) k v (.node r g.k g.v g.sib)

/-- splay-tree.c:1512-1563: move the node in the slot up. -/
def rotate (p g : Option Frame) : STree → SplayOut
  | .nil => .null
  | .node l k v r =>
    match p, g with
    | none, _ => .here (.node l k v r)
    | some p, none => .up1 (zig p l k v r)
    | some p, some g => .up2 (zigzag p g l k v r)

/-- splay-tree.c:1470-1564 `Splay`. -/
def splay (cmp : Option (Nat → Nat → Int)) (key : Nat) :
    STree → (depth : Nat) → (p g : Option Frame) → SplayOut
  | .nil, _, _, _ => .null
  | .node l k v r, depth, p, g =>
    let c := cmpKeys cmp k key
    if c = 0 then rotate p g (.node l k v r)
    else if maxSplayTreeDepth ≤ depth then .bal
    else
      match (if c > 0 then splay cmp key l (depth + 1) (some ⟨true, k, v, r⟩) p
             else splay cmp key r (depth + 1) (some ⟨false, k, v, l⟩) p) with
      | .null => rotate p g (.node l k v r)
      | .up1 t => rotate p g t
      | .up2 t => .up1 t
      | .bal => .bal
      | .here _ => .bal  -- cannot happen: the call has a parent

/-- splay-tree.c:81-111 `struct _SplayTreeInfo`. The `balance` flag is set only while `SplaySplayTree`
runs. -/
structure SplayTree where
  root : STree
  key : Nat
  next : Nat
  nodes : Nat

/-- splay-tree.c:1094-1125 `NewSplayTree`. -/
def newSplayTree : SplayTree := ⟨.nil, 0, 0, 0⟩

/-- splay-tree.c:969-975. -/
inductive Trans where
  | left | right | down | up
  deriving DecidableEq

/-- splay-tree.c:1010-1056: one turn of the traversal loop of `IterateOverSplayTree` with the collecting
method `SplayTreeToNodeArray` (267-276). The stack is `nodes[0..i]` with `transitions[0..i]`, top
first; `cap` is the length of both arrays. The result is `none` when the loop ends. -/
def iterStep (cap : Nat) : List (STree × Trans) → List (Nat × Nat) →
    Res (Option (List (STree × Trans) × List (Nat × Nat)))
  | [], _ => .ub
  | (.nil, _) :: _, _ => .ub
  | (.node l k v r, .left) :: st, out =>
    match l with
    | .nil => .ok (some ((.node l k v r, .down) :: st, out))
    | _ => if st.length + 1 < cap then
        .ok (some ((l, .left) :: (.node l k v r, .down) :: st, out)) else .ub
  | (.node l k v r, .right) :: st, out =>
    match r with
    | .nil => .ok (some ((.node l k v r, .up) :: st, out))
    | _ => if st.length + 1 < cap then
        .ok (some ((r, .left) :: (.node l k v r, .up) :: st, out)) else .ub
  | (.node l k v r, .down) :: st, out =>
    if out.length < cap then .ok (some ((.node l k v r, .right) :: st, out ++ [(k, v)])) else .ub
  | (.node _ _ _ _, .up) :: st, out =>
    match st with
    | [] => .ok none
    | _ => .ok (some (st, out))

/-- The traversal loop; fuel exhaustion is `fatal`. -/
def iterLoop (cap : Nat) : Nat → List (STree × Trans) → List (Nat × Nat) → Res (List (Nat × Nat))
  | 0, _, _ => .fatal
  | n + 1, st, out => do
    let s ← iterStep cap st out
    match s with
    | none => .ok out
    | some (st, out) => iterLoop cap n st out

/-- splay-tree.c:245-265 `LinkSplayTreeNodes`; fuel exhaustion is `fatal`. -/
def linkNodes (nodes : List (Nat × Nat)) : Nat → (low high : Nat) → Res STree
  | 0, _, _ => .fatal
  | n + 1, low, high =>
    let bisect := low + (high - low) / 2
    match nodes[bisect]? with
    | none => .ub
    | some (k, v) =>
      (if low + 1 > bisect then .ok .nil else linkNodes nodes n low (bisect - 1)) >>= fun l =>
      (if bisect + 1 > high then .ok .nil else linkNodes nodes n (bisect + 1) high) >>= fun r =>
      .ok (.node l k v r)

/-- splay-tree.c:278-299 `BalanceSplayTree` (4 turns of the loop per node). -/
def balanceSplayTree (s : SplayTree) : Res SplayTree :=
  if s.nodes ≤ 2 then .ok s
  else do
    let a ← iterLoop s.nodes (4 * s.nodes) [(s.root, .left)] []
    let t ← linkNodes a (s.nodes + 1) 0 (s.nodes - 1)
    .ok { s with root := t }

/-- splay-tree.c:1583, 1588: `Splay` from the root; `false` when `balance` was set. -/
def splayTop (cmp : Option (Nat → Nat → Int)) (s : SplayTree) (key : Nat) : Res (Bool × SplayTree) :=
  match splay cmp key s.root 0 none none with
  | .here t => .ok (true, { s with root := t })
  | .bal => .ok (false, s)
  | _ => .ub

/-- splay-tree.c:1570-1582: is the tree already splayed at the key? -/
def isSplayed (cmp : Option (Nat → Nat → Int)) (s : SplayTree) (rootKey key : Nat) : Bool :=
  if s.key = 0 then false
  else match cmp with
    | some c => c rootKey key == 0
    | none => s.key == key

/-- splay-tree.c:1585-1592: after hitting the depth limit. -/
def splayAgain (cmp : Option (Nat → Nat → Int)) (s : SplayTree) (key : Nat) : Res SplayTree := do
  let s ← balanceSplayTree s
  let (ok, s) ← splayTop cmp s key
  if ok then .ok { s with key := key } else .fatal

/-- splay-tree.c:1566-1594 `SplaySplayTree`. -/
def splaySplayTree (cmp : Option (Nat → Nat → Int)) (s : SplayTree) (key : Nat) : Res SplayTree :=
  match s.root with
  | .nil => .ok s
  | .node _ k _ _ =>
    if isSplayed cmp s k key then .ok s
    else do
      let (ok, s) ← splayTop cmp s key
      if ok then .ok { s with key := key } else splayAgain cmp s key

/-- splay-tree.c:152-218 `AddValueToSplayTree`. -/
def addValue (cmp : Option (Nat → Nat → Int)) (s : SplayTree) (key value : Nat) : Res SplayTree := do
  let s ← splaySplayTree cmp s key
  match s.root with
  | .nil => .ok { s with root := .node .nil key value .nil, key := 0, nodes := s.nodes + 1 }
  | .node l k v r =>
    let c := cmpKeys cmp k key
    if c = 0 then .ok { s with root := .node l key value r }
    else if c < 0 then
      .ok { s with root := .node (.node l k v .nil) key value r, key := 0, nodes := s.nodes + 1 }
    else
      .ok { s with root := .node l key value (.node .nil k v r), key := 0, nodes := s.nodes + 1 }

/-- splay-tree.c:874-904 `GetValueFromSplayTree`. -/
def getFromSplay (cmp : Option (Nat → Nat → Int)) (s : SplayTree) (key : Nat) :
    Res (Nat × SplayTree) :=
  match s.root with
  | .nil => .ok (0, s)
  | _ => do
    let s ← splaySplayTree cmp s key
    match s.root with
    | .nil => .ub
    | .node _ k v _ => if cmpKeys cmp k key = 0 then .ok (v, s) else .ok (0, s)

/-- splay-tree.c:1301-1307: hang `right` below the rightmost node of the left subtree. -/
def hangRight (right : STree) : STree → STree
  | .nil => right
  | .node l k v .nil => .node l k v right
  | .node l k v r => .node l k v (hangRight right r)

/-- splay-tree.c:1287-1307: the tree without its root. -/
def joinSubtrees (l r : STree) : STree :=
  match l, r with
  | .nil, r => r
  | l, .nil => l
  | l, r => hangRight r l

/-- splay-tree.c:1254-1310 `RemoveNodeFromSplayTree`; 599-654 `DeleteNodeFromSplayTree` does the same and
returns whether a node was removed (the second component). -/
def removeFromSplay (cmp : Option (Nat → Nat → Int)) (s : SplayTree) (key : Nat) :
    Res (Nat × Bool × SplayTree) :=
  match s.root with
  | .nil => .ok (0, false, s)
  | _ => do
    let s ← splaySplayTree cmp s key
    match s.root with
    | .nil => .ub
    | .node l k v r =>
      if cmpKeys cmp k key ≠ 0 then .ok (0, false, { s with key := 0 })
      else .ok (v, true, { s with root := joinSubtrees l r, key := 0, nodes := s.nodes - 1 })

/-- splay-tree.c:331-342 `GetFirstSplayTreeNode`: the leftmost key. -/
def firstKey : STree → Nat
  | .nil => 0
  | .node .nil k _ _ => k
  | .node l _ _ _ => firstKey l

/-- splay-tree.c:1427-1436 `ResetSplayTreeIterator`. -/
def resetSplay (s : SplayTree) : SplayTree := { s with next := firstKey s.root }

/-- splay-tree.c:765-793 `GetNextKeyInSplayTree` and 819-847 `GetNextValueInSplayTree`: the node whose
key and value they return. -/
def nextInSplay (cmp : Option (Nat → Nat → Int)) (s : SplayTree) :
    Res (Option (Nat × Nat) × SplayTree) :=
  match s.root with
  | .nil => .ok (none, s)
  | _ =>
    if s.next = 0 then .ok (none, s)
    else do
      let s ← splaySplayTree cmp s s.next
      match s.root with
      | .nil => .ub
      | .node _ k v r => .ok (some (k, v), { s with next := firstKey r })

/-- splay-tree.c:1164-1224 (and 502-569): visit the nodes in key order from `next` on until one holds
the value, and remove that node; the removed key, or NULL. Fuel exhaustion is `fatal`. -/
def removeValueLoop (cmp : Option (Nat → Nat → Int)) (value : Nat) :
    Nat → SplayTree → (next : Nat) → Res (Nat × Bool × SplayTree)
  | 0, _, _ => .fatal
  | n + 1, s, next =>
    if next = 0 then .ok (0, false, s)
    else do
      let s ← splaySplayTree cmp s next
      match s.root with
      | .nil => .ub
      | .node _ k v r =>
        if v = value then do
          let s ← splaySplayTree cmp s k
          match s.root with
          | .nil => .ub
          | .node l k' _ r' =>
            if cmpKeys cmp k' k ≠ 0 then .ok (k, false, { s with key := 0 })
            else .ok (k, true, { s with root := joinSubtrees l r', key := 0, nodes := s.nodes - 1 })
        else removeValueLoop cmp value n s (firstKey r)

/-- splay-tree.c:1145-1227 `RemoveNodeByValueFromSplayTree` (returns the key) and 484-572
`DeleteNodeByValueFromSplayTree` (returns whether a node was removed). -/
def removeValueFromSplay (cmp : Option (Nat → Nat → Int)) (s : SplayTree) (value : Nat) :
    Res (Nat × Bool × SplayTree) :=
  match s.root with
  | .nil => .ok (0, false, s)
  | _ => removeValueLoop cmp value (s.nodes + 1) s (firstKey s.root)

/-- splay-tree.c:367-380: copy the nodes in key order from `next` on. Fuel exhaustion is `fatal`. -/
def cloneLoop (cmp : Option (Nat → Nat → Int)) (cloneKey cloneValue : Nat → Nat) :
    Nat → (s clone : SplayTree) → (next : Nat) → Res (SplayTree × SplayTree)
  | 0, _, _, _ => .fatal
  | n + 1, s, c, next =>
    if next = 0 then .ok (s, c)
    else do
      let s ← splaySplayTree cmp s next
      match s.root with
      | .nil => .ub
      | .node _ k v r => do
        let c ← addValue cmp c (cloneKey k) (cloneValue v)
        cloneLoop cmp cloneKey cloneValue n s c (firstKey r)

/-- splay-tree.c:344-383 `CloneSplayTree`: the (re-splayed) tree and its clone. -/
def cloneSplayTree (cmp : Option (Nat → Nat → Int)) (cloneKey cloneValue : Nat → Nat)
    (s : SplayTree) : Res (SplayTree × SplayTree) :=
  match s.root with
  | .nil => .ok (s, newSplayTree)
  | _ => cloneLoop cmp cloneKey cloneValue (s.nodes + 1) s newSplayTree (firstKey s.root)

end Wizard
