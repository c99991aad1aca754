import Verif.Model.Avl
/-! # Depth of the ordered maps: what the theorems about costs speak of -/
namespace LogCache.Spec
variable {α : Type}

/-- `ks` are the keys of a way down from the root: what a search, an insertion or the
walk to the oldest entry looks at. -/
inductive WayDown : Tree α → List Int → Prop where
  | stop (t : Tree α) : WayDown t []
  | left {l r : Tree α} {k b : Int} {v : α} {ks : List Int} : WayDown l ks → WayDown (.node l k v b r) (k :: ks)
  | right {l r : Tree α} {k b : Int} {v : α} {ks : List Int} : WayDown r ks → WayDown (.node l k v b r) (k :: ks)

/-- Number of levels. -/
def treeHeight : Tree α → Nat
  | .nil => 0
  | .node l _ _ _ r => 1 + max (treeHeight l) (treeHeight r)

/-- Every node knows the difference of the heights of its children, which is at most
one. -/
def Balanced : Tree α → Prop
  | .nil => True
  | .node l _ _ b r =>
    Balanced l ∧ Balanced r ∧ b = (treeHeight r : Int) - treeHeight l ∧ -1 ≤ b ∧ b ≤ 1

/-- Looking up a key, with the number of keys it is compared with. -/
def getCounted (key : Int) : Tree α → Option α × Nat
  | .nil => (none, 0)
  | .node l k v _ r =>
    if key = k then (some v, 1)
    else
      let x := if key < k then getCounted key l else getCounted key r
      (x.1, x.2 + 1)

end LogCache.Spec
