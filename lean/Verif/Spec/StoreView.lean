import Verif.Model.Store
import Verif.Spec.SortedMap
/-!
# How a store is observed

The only facts about the model's representation a reader of the property
theorems needs: the entries stored under a source in storage order, and the
total number of stored envelopes.
-/
namespace LogCache

/-- The (storage key, envelope) entries of a source in storage order; empty for
an unknown source. -/
def Store.entries (st : Store) (src : Str) : List (Int × Envelope) :=
  match idxLoad st.index src with
  | some s => s.tree.toList
  | none => []

/-- The envelopes of a source in storage order. -/
def Store.envelopes (st : Store) (src : Str) : List Envelope := (st.entries src).map Prod.snd

/-- Number of envelopes stored over all sources. -/
def Store.total (st : Store) : Nat := (st.index.map fun p => p.2.tree.toList.length).sum

/-- The sources that are present. -/
def Store.sources (st : Store) : List Str := st.index.map Prod.fst

/-- What is left of a source's entries after making room for one more: at
capacity the first entry goes. -/
def makeRoom (max : Int) (L : List (Int × Envelope)) : List (Int × Envelope) :=
  if max ≤ (L.length : Int) then L.tail else L

/-- All `maxFudge + 1` storage keys from the timestamp of `e` on are occupied,
so storing `e` must overwrite an entry. -/
def overwrites (cfg : Config) (L : List (Int × Envelope)) (e : Envelope) : Prop :=
  ∀ i : Nat, i ≤ cfg.maxFudge → e.timestamp + i ∈ Spec.keys (makeRoom cfg.maxPerSource L)

end LogCache
