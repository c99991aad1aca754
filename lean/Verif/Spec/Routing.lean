import Verif.Model.Routing
/-!
# Specification vocabulary for routing
-/
namespace LogCache.Spec

/-- The hash lies in the range, both bounds inclusive. -/
def covers (h : Nat) (r : HRange) : Bool := decide (r.start ≤ h ∧ h ≤ r.stop)

/-- The ranges a request assigns to an address. -/
def rangesOf (req : List (Str × List HRange)) (a : Str) : List HRange :=
  (req.filter (fun p => p.1 = a)).flatMap Prod.snd

/-- The ranges a request assigns to addresses that are not nodes. -/
def rangesOfOthers (req : List (Str × List HRange)) (nodes : List Str) : List HRange :=
  (req.filter (fun p => p.1 ∉ nodes)).flatMap Prod.snd

/-- A sequence of `SetRanges` calls leads from one table to another. -/
inductive TableRun : RTable → List (List (Str × List HRange)) → RTable → Prop
  | nil (t : RTable) : TableRun t [] t
  | snoc {t t1 t2 : RTable} {reqs : List (List (Str × List HRange))}
      {req : List (Str × List HRange)} :
      TableRun t reqs t1 → SetRanges t1 req t2 → TableRun t (reqs ++ [req]) t2

/-- Calls to the orchestrator agent. -/
inductive OrchOp where
  | add (grow : Nat) (r : Option HRange)
  | remove (r : Option HRange)

/-- The agent handles a sequence of calls without crashing. -/
inductive OrchRun : Orch → List OrchOp → Orch → Prop
  | nil (o : Orch) : OrchRun o [] o
  | add {o o1 : Orch} {ops : List OrchOp} (g : Nat) (r : Option HRange) :
      OrchRun o ops o1 → OrchRun o (ops ++ [.add g r]) (o1.add g r)
  | remove {o o1 o2 : Orch} {ops : List OrchOp} (r : Option HRange) :
      OrchRun o ops o1 → o1.remove r = some o2 → OrchRun o (ops ++ [.remove r]) o2

/-- The list of ranges after a sequence of calls: additions at the end, removals
take out the first equal range (`List.erase`), if any. -/
def rangeList (ops : List OrchOp) : List (Option HRange) :=
  ops.foldl (fun l op => match op with | .add _ r => l ++ [r] | .remove r => l.erase r) []

end LogCache.Spec
