import Verif.Model.Base
/-!
# Go's `container/heap` over `ExpirationHeap`

`/repo/internal/cache/store/store.go:515-538` defines `ExpirationHeap`, a slice
ordered by timestamp; `container/heap` (Go standard library) is transcribed.
Loops carry a fuel argument equal to the slice length, which bounds their
iterations (`up` halves its index, `down` doubles it).
-/
namespace LogCache

/-- `storageExpiration` (store.go:517-521). The tree pointer is identified by the
source id: while a prune runs atomically the heap holds one entry per source. -/
structure Expiration where
  timestamp : Int
  sourceId : Str
deriving DecidableEq, Repr

/-- `ExpirationHeap`, `store.go:515`. -/
abbrev ExpHeap := List Expiration

namespace ExpHeap

/-- `ExpirationHeap.Less` (store.go:524); indices in range in every use. -/
def less (h : ExpHeap) (i j : Nat) : Bool :=
  match h[i]?, h[j]? with
  | some a, some b => decide (a.timestamp < b.timestamp)
  | _, _ => false

/-- `ExpirationHeap.Swap` (store.go:525). -/
def swap (h : ExpHeap) (i j : Nat) : ExpHeap :=
  match h[i]?, h[j]? with
  | some a, some b => (h.set i b).set j a
  | _, _ => h

/-- `container/heap.up`. Library code, reached from `store.go:195, 224, 227`. -/
def up : Nat → ExpHeap → Nat → ExpHeap
  | 0, h, _ => h
  | fuel + 1, h, j =>
    let i := (j - 1) / 2
    if i = j ∨ less h j i = false then h else up fuel (swap h i j) i

/-- `container/heap.down` on the first `n` elements.
Library code, reached from `store.go:195, 224, 227`. -/
def down : Nat → ExpHeap → Nat → Nat → ExpHeap
  | 0, h, _, _ => h
  | fuel + 1, h, i, n =>
    let j1 := 2 * i + 1
    if j1 ≥ n then h
    else
      let j := if j1 + 1 < n ∧ less h (j1 + 1) j1 = true then j1 + 1 else j1
      if less h j i = false then h else down fuel (swap h i j) j n

/-- `heap.Push` (used at store.go:195, 227). -/
def push (h : ExpHeap) (x : Expiration) : ExpHeap :=
  let h' := h ++ [x]
  up h'.length h' (h'.length - 1)

/-- The method `ExpirationHeap.Pop` (store.go:531-538): drop the last slot.
`none` models the index-out-of-range panic on an empty slice. -/
def popLast (h : ExpHeap) : Option (Expiration × ExpHeap) :=
  match h.getLast? with
  | none => none
  | some x => some (x, h.dropLast)

/-- `heap.Pop` (used at store.go:224): swap first and last, sift down, drop the
last slot; panics on an empty heap (`Swap(0,-1)`). -/
def pop (h : ExpHeap) : Option (Expiration × ExpHeap) :=
  match h with
  | [] => none
  | _ :: _ =>
    let n := h.length - 1
    popLast (down h.length (swap h 0 n) 0 n)

end ExpHeap
end LogCache
