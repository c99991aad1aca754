import Verif.Model.MetaCluster

/-! # What a client of Meta relies on in a cluster -/

namespace LogCache.Spec

/-- A client that asks node `i` for the meta information of the cluster gets `resp`. -/
def ClusterAnswers {μ : Type} (act : MetaNetAct μ) (i : Nat) (resp : List (Str × μ)) : Prop :=
  act = .clusterHit i resp ∨ ∃ c : GatherCall μ, c.node = i ∧ act = .clusterDone c (some resp)

/-- Node `j` held the entry at some time in the last `age` before `now`. -/
def HeldWithin {μ : Type} (metaAt : Nat → Int → Str → Option μ) (j : Nat) (age now : Int) (x : Str) (v : μ) : Prop :=
  ∃ τ, now - age ≤ τ ∧ τ ≤ now ∧ metaAt j τ x = some v

/-- Every entry of every answer was held by one of the nodes in the last `age`. -/
def MetaAtMostOld {μ : Type} (n : Nat) (metaAt : Nat → Int → Str → Option μ) (age : Int)
    (evs : List (Int × MetaNetAct μ)) : Prop :=
  ∀ now act i resp x v, (now, act) ∈ evs → ClusterAnswers act i resp → resp.lookup x = some v →
    ∃ j, j < n ∧ HeldWithin metaAt j age now x v

/-- Every source that one of the nodes has held for all of the last `age` is in every answer. -/
def MetaListsAll {μ : Type} (n : Nat) (metaAt : Nat → Int → Str → Option μ) (age : Int)
    (evs : List (Int × MetaNetAct μ)) : Prop :=
  ∀ now act i resp x j, (now, act) ∈ evs → ClusterAnswers act i resp → j < n →
    (∀ τ, now - age ≤ τ → τ ≤ now → metaAt j τ x ≠ none) → resp.lookup x ≠ none

/-- The own store answers within `l1` and the whole cluster within `l2`. -/
def AnsweredWithin {μ : Type} (l1 l2 : Int) (evs : List (Int × MetaNetAct μ)) : Prop :=
  (∀ now j since r, (now, MetaNetAct.localDone j since r) ∈ evs → now - since ≤ l1) ∧
  ∀ now c r, (now, MetaNetAct.clusterDone c r) ∈ evs → now - c.since ≤ l2

end LogCache.Spec
