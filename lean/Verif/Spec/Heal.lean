import Verif.Spec.Crash
/-!
# Vocabulary for clusters that recover
-/
namespace LogCache.Spec

/-- No table names a node twice for an id: neither the first of the nodes nor one they were given. -/
def FairTables (L : Str → List Nat) (evs : List XEvent) : Prop :=
  (∀ id, (L id).Nodup) ∧ ∀ i l, XEvent.retable i l ∈ evs → ∀ id, (l id).Nodup

/-- Nothing happens to the source, which belongs to `owners`, but plain Sends, and deliveries from
node to node: no node crashes, what is lost is of other sources, and the tables that are given out
leave it where it is. -/
def Calm (owners : List Nat) (src : Str) (evs : List XEvent) : Prop :=
  ∀ ev ∈ evs, match ev with
    | .client _ req => req.localOnly = false
    | .deliver .. => True
    | .drop _ _ lost => ∀ e ∈ lost, e.sourceId ≠ src
    | .retable _ l => l src = owners
    | .crash .. => False

/-- Some of the envelopes, each at most as often as it is there. -/
def SomeOf (l all : List Envelope) : Prop := ∃ rest, (l ++ rest).Perm all

end LogCache.Spec
