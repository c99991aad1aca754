import Verif.Model.Routing
/-!
# A round of the scheduler (`internal/scheduler/scheduler.go:143-276`)

`orchestrator.Orchestrator` (code.cloudfoundry.org/go-orchestrator) is a dependency whose source is
not in the sandbox.  Of its `NextTerm` only this is used: it asks every worker for its tasks,
remembers what those said that answered (`LastActual`), and then makes calls of `Add` and `Remove`.
Which calls it makes is left open here.
-/
namespace LogCache

/-- What the scheduler reaches of a node: the agent that keeps its ranges and its routing table
(`log_cache.go:167-183, 234`). -/
structure NodeSide where
  agent : Orch
  table : RTable

/-- `comm.List` (scheduler.go:203-226) of a node that answers; `none`: a range that is nil is
dereferenced.  Simplification: the encoding of the answer is left out (see C115). -/
def commList (o : Orch) : Option (List HRange) := (o.list.view o.mem).mapM id

/-- A call the library makes: for each, what `isLeader` says (scheduler.go:230, 255), and whether
the request reaches the node.  `grow` as for `Orch.add`.  Models the calls of
`scheduler.go:229, 254`. -/
inductive TermCall where
  | add (leads reached : Bool) (grow : Nat) (w : Str) (r : HRange)
  | remove (leads reached : Bool) (w : Str) (r : HRange)

/-- A request of the scheduler at an agent (orchestrator.go:32-55); `none` is a panic of the node. -/
def agentHandles (grow : Nat) (o : Orch) : OrchReq → Option Orch
  | .addRange r => some (o.add grow (some r))
  | .removeRange r => o.remove (some r)
  | .listRanges => some o
  | .setRanges _ => some o

/-- `nodes` with one of them changed. Models the state of the processes that
`scheduler.go:143-276` talks to. -/
def setNode (ns : Str → NodeSide) (w : Str) (n : NodeSide) : Str → NodeSide := fun x => if x = w then n else ns x

/-- The requests of a call are handled by the nodes they are for (scheduler.go:229-276). -/
def handleAll (reached : Bool) (grow : Nat) : List (Str × OrchReq) → (Str → NodeSide) → Option (Str → NodeSide)
  | [], ns => some ns
  | (w, q) :: rest, ns =>
    if reached then
      match agentHandles grow (ns w).agent q with
      | none => none
      | some o => handleAll reached grow rest (setNode ns w { ns w with agent := o })
    else handleAll reached grow rest ns

/-- `comm.Add` and `comm.Remove` (scheduler.go:229-276) with their effect on the nodes. -/
def runCall (ns : Str → NodeSide) : TermCall → Option (Str → NodeSide)
  | .add leads reached grow w r => handleAll reached grow (commAdd leads w r reached).1 ns
  | .remove leads reached w r => handleAll reached 0 (commRemove leads w r reached).1 ns

/-- All calls of a term, one after the other (`comm.mu`, scheduler.go:200, 234, 259). -/
def runCalls : (Str → NodeSide) → List TermCall → Option (Str → NodeSide)
  | ns, [] => some ns
  | ns, c :: cs => match runCall ns c with
    | none => none
    | some ns' => runCalls ns' cs

/-- What the workers that answer say of themselves (scheduler.go:203-226). -/
def askWorkers (answers : Str → Bool) (ns : Str → NodeSide) : List Str → Option (List (Str × List HRange))
  | [] => some []
  | w :: ws =>
    if answers w then
      match commList (ns w).agent with
      | none => none
      | some l => (askWorkers answers ns ws).map ((w, l) :: ·)
    else askWorkers answers ns ws

/-- `NextTerm` (scheduler.go:148-152): `seen` is `LastActual` afterwards; the answers of the workers
come in any order. Library code, see above. -/
structure NextTerm (workers : List Str) (answers : Str → Bool) (ns : Str → NodeSide) (calls : List TermCall)
    (seen : List (Str × List HRange)) (ns' : Str → NodeSide) : Prop where
  gathered : ∃ l, askWorkers answers ns workers = some l ∧ seen.Perm l
  called : runCalls ns calls = some ns'

/-- The requests of `setRemoteTables` (scheduler.go:162-174) at the nodes. -/
inductive Pushed (reached : Str → Bool) : (Str → NodeSide) → List (Str × OrchReq) → (Str → NodeSide) → Prop
  | nil (ns : Str → NodeSide) : Pushed reached ns [] ns
  | lost {ns ns' : Str → NodeSide} {w : Str} {q : OrchReq} {rest : List (Str × OrchReq)} :
      reached w = false → Pushed reached ns rest ns' → Pushed reached ns ((w, q) :: rest) ns'
  | set {ns ns' : Str → NodeSide} {w : Str} {m : List (Str × List HRange)} {t : RTable}
      {rest : List (Str × OrchReq)} :
      reached w = true → SetRanges (ns w).table m t → Pushed reached (setNode ns w { ns w with table := t }) rest ns' →
      Pushed reached ns ((w, .setRanges m) :: rest) ns'

/-- A turn of the loop of `Start` (scheduler.go:143-158): two terms, then the tables. `ns1` is the
state of the nodes between the terms, when those that answer (`ans2`) are asked the second time. -/
structure SchedRound (workers : List Str) (ans1 ans2 : Str → Bool) (calls1 calls2 : List TermCall) (leads : Bool)
    (reached : Str → Bool) (ns ns1 ns' : Str → NodeSide) : Prop where
  steps : ∃ seen1 seen2 ns2, NextTerm workers ans1 ns calls1 seen1 ns1 ∧
    NextTerm workers ans2 ns1 calls2 seen2 ns2 ∧ Pushed reached ns2 (pushTables leads workers seen2) ns'

end LogCache
