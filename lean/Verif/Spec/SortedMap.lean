/-!
# Specification: a finite map from integer keys as a key-sorted list
-/
namespace LogCache.Spec
variable {α : Type}

/-- Strictly increasing keys. -/
def Sorted (l : List (Int × α)) : Prop := l.Pairwise (fun a b => a.1 < b.1)

/-- Insert a binding at its place, replacing an existing one with the same key. -/
def insertKV (key : Int) (val : α) : List (Int × α) → List (Int × α)
  | [] => [(key, val)]
  | (k, v) :: t =>
    if key < k then (key, val) :: (k, v) :: t
    else if key = k then (key, val) :: t
    else (k, v) :: insertKV key val t

/-- Delete the binding of a key. -/
def eraseK (key : Int) (l : List (Int × α)) : List (Int × α) :=
  l.filter (fun p => p.1 ≠ key)

/-- Look a key up. -/
def lookupK (key : Int) (l : List (Int × α)) : Option α :=
  (l.find? (fun p => p.1 = key)).map Prod.snd

/-- All keys of the map. -/
def keys (l : List (Int × α)) : List Int := l.map Prod.fst

end LogCache.Spec
