import Verif.Model.Base
/-!
# The ordered map behind each source: an AVL tree

`/repo/internal/cache/store/store.go:101` and
`/repo/internal/routing/static_lookup.go:18` use
`github.com/emirpasic/gods/trees/avltree`.  That dependency is not in the
sandbox; its `put`, `remove`, `removeMin`, `putFix`, `removeFix`, `singlerot`,
`doublerot` and `rotate` are transcribed here from its published source.  The
property theorems about reads hold for *every* search tree, so they do not rest
on this transcription; the concrete counterexamples do.

Simplifications: parent pointers are dropped; the separately maintained node
counter is replaced by counting nodes; nil dereferences in rotations (which
cannot happen in balanced trees) leave the tree unchanged.
-/

namespace LogCache

/-- `avltree.Node`; `b` is the balance factor (height of `r` minus that of `l`).
Library code, reached from `store.go:115-141, 194, 257-277, 384-457` and `static_lookup.go:28, 41`. -/
inductive Tree (α : Type) where
  | nil
  | node (l : Tree α) (k : Int) (v : α) (b : Int) (r : Tree α)
deriving DecidableEq, Repr

namespace Tree
variable {α : Type}

/-- In-order contents (not in the Go code; used by specifications).
Library code, reached from `store.go:115-141, 194, 257-277, 384-457` and `static_lookup.go:28, 41`. -/
def toList : Tree α → List (Int × α)
  | nil => []
  | node l k v _ r => toList l ++ (k, v) :: toList r

/-- `Tree.Size()`, used at store.go:115,257,268,500. -/
def size : Tree α → Nat
  | nil => 0
  | node l _ _ _ r => size l + 1 + size r

/-- `Tree.Get(key)`, used at store.go:127. -/
def get (key : Int) : Tree α → Option α
  | nil => none
  | node l k v _ r =>
    if key = k then some v else if key < k then get key l else get key r

/-- `Tree.Left()`, used at store.go:116,140,194,264,273; `none` is the nil node. -/
def left : Tree α → Option (Int × α)
  | nil => none
  | node nil k v _ _ => some (k, v)
  | node (node l k v b r) _ _ _ _ => left (node l k v b r)

/-- `Tree.Floor(key)`, used at /repo/internal/routing/static_lookup.go:41. -/
def floor (key : Int) : Tree α → Option (Int × α) → Option (Int × α)
  | nil, acc => acc
  | node l k v _ r, acc =>
    if key = k then some (k, v)
    else if key < k then floor key l acc
    else floor key r (some (k, v))

/-- gods `rotate(1, s)`: the right child becomes the root.
Library code, reached from `store.go:115-141, 194, 257-277, 384-457` and `static_lookup.go:28, 41`. -/
def rotateL : Tree α → Tree α
  | node l k v b (node rl rk rv rb rr) => node (node l k v b rl) rk rv rb rr
  | t => t

/-- gods `rotate(-1, s)`: the left child becomes the root.
Library code, reached from `store.go:115-141, 194, 257-277, 384-457` and `static_lookup.go:28, 41`. -/
def rotateR : Tree α → Tree α
  | node (node ll lk lv lb lr) k v b r => node ll lk lv lb (node lr k v b r)
  | t => t

/-- Balance factor of a node (0 for nil, which the Go code would not ask for).
Library code, reached from `store.go:115-141, 194, 257-277, 384-457` and `static_lookup.go:28, 41`. -/
def bal : Tree α → Int
  | nil => 0
  | node _ _ _ b _ => b

/-- Overwrite the balance factor of the root.
Library code, reached from `store.go:115-141, 194, 257-277, 384-457` and `static_lookup.go:28, 41`. -/
def setBal (b : Int) : Tree α → Tree α
  | nil => nil
  | node l k v _ r => node l k v b r

/-- gods `singlerot(c, s)`; `right = true` is `c = 1`.
Library code, reached from `store.go:115-141, 194, 257-277, 384-457` and `static_lookup.go:28, 41`. -/
def singlerot (right : Bool) : Tree α → Tree α
  | node l k v _ r =>
    setBal 0 (if right then rotateL (node l k v 0 r) else rotateR (node l k v 0 r))
  | nil => nil

/-- gods `doublerot(c, s)`; `right = true` is `c = 1`.
Library code, reached from `store.go:115-141, 194, 257-277, 384-457` and `static_lookup.go:28, 41`. -/
def doublerot (right : Bool) (t : Tree α) : Tree α :=
  match right, t with
  | true, node l k v _ (node (node pl pk pv pb pr) rk rv _ rr) =>
    -- p is the new root, s = old root (now left), r = old right child (now right)
    if pb = 1 then node (node l k v (-1) pl) pk pv 0 (node pr rk rv 0 rr)
    else if pb = -1 then node (node l k v 0 pl) pk pv 0 (node pr rk rv 1 rr)
    else node (node l k v 0 pl) pk pv 0 (node pr rk rv 0 rr)
  | false, node (node ll lk lv _ (node pl pk pv pb pr)) k v _ r =>
    if pb = -1 then node (node ll lk lv 0 pl) pk pv 0 (node pr k v 1 r)
    else if pb = 1 then node (node ll lk lv (-1) pl) pk pv 0 (node pr k v 0 r)
    else node (node ll lk lv 0 pl) pk pv 0 (node pr k v 0 r)
  | _, t => t

/-- gods `putFix(c, t)` for `c = 1` (`right = true`) or `c = -1`: rebalance after
the child on side `c` grew; the flag says whether this tree grew.
Library code, reached from `store.go:115-141, 194, 257-277, 384-457` and `static_lookup.go:28, 41`. -/
def putFix (right : Bool) (t : Tree α) : Tree α × Bool :=
  let c : Int := if right then 1 else -1
  match t with
  | nil => (nil, false)
  | node l k v b r =>
    if b = 0 then (node l k v c r, true)
    else if b = -c then (node l k v 0 r, false)
    else if bal (if right then r else l) = c then (singlerot right (node l k v b r), false)
    else (doublerot right (node l k v b r), false)

/-- gods `put(key, value, p, qp)`, used through `Tree.Put` at store.go:134. -/
def putAux (key : Int) (val : α) : Tree α → Tree α × Bool
  | nil => (node nil key val 0 nil, true)
  | node l k v b r =>
    if key = k then (node l key val b r, false)
    else if key < k then
      match putAux key val l with
      | (l', true) => putFix false (node l' k v b r)
      | (l', false) => (node l' k v b r, false)
    else
      match putAux key val r with
      | (r', true) => putFix true (node l k v b r')
      | (r', false) => (node l k v b r', false)

/-- `Tree.Put(key, value)`.
Library code, reached from `store.go:115-141, 194, 257-277, 384-457` and `static_lookup.go:28, 41`. -/
def put (key : Int) (val : α) (t : Tree α) : Tree α := (putAux key val t).1

/-- gods `removeFix(c, t)`: rebalance after the child on side `-c` shrank; the
flag says whether this tree shrank.
Library code, reached from `store.go:115-141, 194, 257-277, 384-457` and `static_lookup.go:28, 41`. -/
def removeFix (right : Bool) (t : Tree α) : Tree α × Bool :=
  let c : Int := if right then 1 else -1
  match t with
  | nil => (nil, false)
  | node l k v b r =>
    if b = 0 then (node l k v c r, false)
    else if b = -c then (node l k v 0 r, true)
    else
      let ch := if right then r else l
      if bal ch = 0 then
        (setBal (-c) (if right then rotateL (node l k v b r) else rotateR (node l k v b r)), false)
      else if bal ch = c then (singlerot right (node l k v b r), true)
      else (doublerot right (node l k v b r), true)

/-- gods `removeMin(qp, minKey, minVal)`; `none` on nil (never called there).
Library code, reached from `store.go:115-141, 194, 257-277, 384-457` and `static_lookup.go:28, 41`. -/
def removeMin : Tree α → Option ((Int × α) × Tree α × Bool)
  | nil => none
  | node l k v b r =>
    match removeMin l with
    | none => some ((k, v), r, true)
    | some (m, l', true) =>
      let s := removeFix true (node l' k v b r)
      some (m, s.1, s.2)
    | some (m, l', false) => some (m, node l' k v b r, false)

/-- gods `remove(key, qp)`, used through `Tree.Remove` at store.go:117,266. -/
def removeAux (key : Int) : Tree α → Tree α × Bool
  | nil => (nil, false)
  | node l k v b r =>
    if key = k then
      match removeMin r with
      | none => (l, true)
      | some (m, r', true) => removeFix false (node l m.1 m.2 b r')
      | some (m, r', false) => (node l m.1 m.2 b r', false)
    else if key < k then
      match removeAux key l with
      | (l', true) => removeFix true (node l' k v b r)
      | (l', false) => (node l' k v b r, false)
    else
      match removeAux key r with
      | (r', true) => removeFix false (node l k v b r')
      | (r', false) => (node l k v b r', false)

/-- `Tree.Remove(key)`.
Library code, reached from `store.go:115-141, 194, 257-277, 384-457` and `static_lookup.go:28, 41`. -/
def remove (key : Int) (t : Tree α) : Tree α := (removeAux key t).1

/-! ## The same with nil dereferences

`putAux` and `removeAux` leave a tree unchanged where the Go code would dereference a nil
child; `putAuxP` and `removeAuxP` give `none` there. -/

/-- The child on side `c`.
Library code, reached from `store.go:115-141, 194, 257-277, 384-457` and `static_lookup.go:28, 41`. -/
def child (right : Bool) : Tree α → Tree α
  | nil => nil
  | node l _ _ _ r => if right then r else l

/-- Is there a node?
Library code, reached from `store.go:115-141, 194, 257-277, 384-457` and `static_lookup.go:28, 41`. -/
def isNode : Tree α → Bool
  | nil => false
  | node .. => true

/-- The nodes gods `putFix(c, t)` dereferences exist: `s`; unless it only sets `s.b`, the
child on side `c`; and for a double rotation that child's child on the other side.
Library code, reached from `store.go:115-141, 194, 257-277, 384-457` and `static_lookup.go:28, 41`. -/
def putFixOk (right : Bool) (t : Tree α) : Bool :=
  let c : Int := if right then 1 else -1
  t.isNode && (bal t == 0 || bal t == -c ||
    ((child right t).isNode && (bal (child right t) == c || (child (!right) (child right t)).isNode)))

/-- The nodes gods `removeFix(c, t)` dereferences exist.
Library code, reached from `store.go:115-141, 194, 257-277, 384-457` and `static_lookup.go:28, 41`. -/
def removeFixOk (right : Bool) (t : Tree α) : Bool :=
  let c : Int := if right then 1 else -1
  t.isNode && (bal t == 0 || bal t == -c ||
    ((child right t).isNode && (bal (child right t) == 0 || bal (child right t) == c ||
      (child (!right) (child right t)).isNode)))

/-- gods `put(key, value, p, qp)`; `none` is a nil dereference.
Library code, reached from `store.go:115-141, 194, 257-277, 384-457` and `static_lookup.go:28, 41`. -/
def putAuxP (key : Int) (val : α) : Tree α → Option (Tree α × Bool)
  | nil => some (node nil key val 0 nil, true)
  | node l k v b r =>
    if key = k then some (node l key val b r, false)
    else if key < k then
      match putAuxP key val l with
      | none => none
      | some (l', true) => if putFixOk false (node l' k v b r) then some (putFix false (node l' k v b r)) else none
      | some (l', false) => some (node l' k v b r, false)
    else
      match putAuxP key val r with
      | none => none
      | some (r', true) => if putFixOk true (node l k v b r') then some (putFix true (node l k v b r')) else none
      | some (r', false) => some (node l k v b r', false)

/-- gods `removeMin(qp, minKey, minVal)`; `none` is a nil dereference.
Library code, reached from `store.go:115-141, 194, 257-277, 384-457` and `static_lookup.go:28, 41`. -/
def removeMinP : Tree α → Option ((Int × α) × Tree α × Bool)
  | nil => none
  | node nil k v _ r => some ((k, v), r, true)
  | node (node ll lk lv lb lr) k v b r =>
    match removeMinP (node ll lk lv lb lr) with
    | none => none
    | some (m, l', true) =>
      if removeFixOk true (node l' k v b r) then
        some (m, (removeFix true (node l' k v b r)).1, (removeFix true (node l' k v b r)).2)
      else none
    | some (m, l', false) => some (m, node l' k v b r, false)

/-- gods `remove(key, qp)`; `none` is a nil dereference.
Library code, reached from `store.go:115-141, 194, 257-277, 384-457` and `static_lookup.go:28, 41`. -/
def removeAuxP (key : Int) : Tree α → Option (Tree α × Bool)
  | nil => some (nil, false)
  | node l k v b r =>
    if key = k then
      if !r.isNode then some (l, true)
      else match removeMinP r with
        | none => none
        | some (m, r', true) =>
          if removeFixOk false (node l m.1 m.2 b r') then some (removeFix false (node l m.1 m.2 b r')) else none
        | some (m, r', false) => some (node l m.1 m.2 b r', false)
    else if key < k then
      match removeAuxP key l with
      | none => none
      | some (l', true) =>
        if removeFixOk true (node l' k v b r) then some (removeFix true (node l' k v b r)) else none
      | some (l', false) => some (node l' k v b r, false)
    else
      match removeAuxP key r with
      | none => none
      | some (r', true) =>
        if removeFixOk false (node l k v b r') then some (removeFix false (node l k v b r')) else none
      | some (r', false) => some (node l k v b r', false)

end Tree
end LogCache
