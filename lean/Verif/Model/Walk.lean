import Verif.Model.Reader
/-!
# `/repo/pkg/client/walk.go`, `/repo/pkg/client/window.go` and
# `/repo/internal/promql/data_reader/walking_data_reader.go`

`Walk` is a loop over the answers of a reader.  One iteration is `walkStep`; what
the reader, the clock and the visitor do in that iteration is its input.
-/
namespace LogCache

/-- The `Backoff` interface (walk.go:185-194) over a state `β`. Sleeping is left out. -/
structure Backoff (β : Type) where
  onErr : β → β × Bool
  onEmpty : β → β × Bool
  reset : β → β

/-- `AlwaysDoneBackoff` (walk.go:196-210). -/
def alwaysDone : Backoff Unit :=
  { onErr := fun b => (b, false), onEmpty := fun b => (b, false), reset := id }

/-- `AlwaysRetryBackoff` (walk.go:212-238). -/
def alwaysRetry : Backoff Unit :=
  { onErr := fun b => (b, true), onEmpty := fun b => (b, true), reset := id }

/-- `RetryBackoff` (walk.go:240-296); the state is `count`. -/
def retryBackoff (maxCount : Int) (onlyErr : Bool) : Backoff Int :=
  { onErr := fun count =>
      let count := count + 1
      if count ≥ maxCount then (count, false) else (count, true)
    onEmpty := fun count =>
      if onlyErr then (count, false)
      else
        let count := count + 1
        if count ≥ maxCount then (count, false) else (count, true)
    reset := fun _ => 0 }

/-- `walkConfig` (walk.go:304-313) without logger and back-off. `stop = none` is the
zero `end` time. -/
structure WalkCfg where
  start : Int := 0
  stop : Option Int := none
  limit : Option Int := none
  types : Option (List EType) := none
  nameFilter : Str := []
  delay : Int := 1000000000

/-- The request of one iteration (walk.go:39-54, 59), as it reaches the server
through `client.Read`. -/
def walkRequest (c : WalkCfg) (sourceId : Str) (start : Int) : ReadRequest :=
  { sourceId := sourceId, start := start, stop := c.stop.getD 0, limit := c.limit.getD 0,
    types := c.types.getD [], nameFilter := c.nameFilter }

/-- What one iteration meets: the reader fails (`ctxDone`: the context has ended
too), or it returns envelopes, with the clock then at `now` and the visitor ready to
return `more`. Models `walk.go:58-115`. -/
inductive WalkIn where
  | failed (ctxDone : Bool)
  | got (es : List Envelope) (now : Int) (more : Bool)

/-- The loop variables: `c.start`, `receivedEmpty`, the back-off's state.
Models `walk.go:28-57`. -/
structure WalkState (β : Type) where
  start : Int
  receivedEmpty : Bool := false
  b : β

/-- The loops at walk.go:76-84 and 88-94: drop elements from the end while `p`. -/
def cutTail (p : Envelope → Bool) (es : List Envelope) : List Envelope :=
  (es.reverse.dropWhile p).reverse

/-- The two trimming stages (walk.go:73-95). -/
def walkTrim (c : WalkCfg) (receivedEmpty : Bool) (now : Int) (es : List Envelope) : List Envelope :=
  let es := if c.stop.isNone || !receivedEmpty then
      cutTail (fun e => !decide (e.timestamp ≤ now - c.delay)) es
    else es
  match c.stop with
  | some stop => cutTail (fun e => !decide (e.timestamp < stop)) es
  | none => es

/-- One iteration (walk.go:58-115): the batch given to the visitor, and the next
state, `none` if `Walk` returns. -/
def walkStep {β : Type} (bo : Backoff β) (c : WalkCfg) (s : WalkState β) (i : WalkIn) :
    Option (List Envelope) × Option (WalkState β) :=
  match i with
  | .failed ctxDone =>
    if ctxDone then (none, none)
    else
      let (b, go) := bo.onErr s.b
      (none, if go then some { s with b := b } else none)
  | .got es now more =>
    let es := walkTrim c s.receivedEmpty now es
    match es.getLast? with
    | none =>
      let (b, go) := bo.onEmpty s.b
      (none, if go then some { s with receivedEmpty := true, b := b } else none)
    | some last =>
      let b := bo.reset s.b
      let over := match c.stop with
        | some stop => decide (last.timestamp + 1 ≥ stop)
        | none => false
      (some es,
        if !more || over then none
        else some { start := last.timestamp + 1, receivedEmpty := false, b := b })

/-- The state `Walk` starts in (walk.go:29-56). -/
def walkInit {β : Type} (c : WalkCfg) (b : β) : WalkState β := { start := c.start, b := b }

/-- The options `WalkingDataReader.Read` passes to `Walk`
(walking_data_reader.go:29-38). -/
def dataReaderCfg (req : ReadRequest) : WalkCfg :=
  { start := req.start, stop := some req.stop, limit := some req.limit,
    types := if req.types = [] then none else some req.types }

/-- Its back-off (walking_data_reader.go:37). -/
def dataReaderBackoff : Backoff Int := retryBackoff 5 true

/-- What `WalkingDataReader.Read` returns after the walk (walking_data_reader.go:40-48):
`none` is the context's error. -/
def dataReaderResult (ctxDone : Bool) (delivered : List (List Envelope)) : Option (List Envelope) :=
  if ctxDone then none else some delivered.flatten

/-- The configuration of the walk behind `BuildWalker` (window.go:54-67). -/
def windowWalk (start stop : Int) : WalkCfg := { start := start, stop := some stop }

/-- `windowConfig` (window.go:106-111) without the logger, with the defaults of window.go:17-21;
`start = none` is the zero time. -/
structure WindowCfg where
  start : Option Int := none
  width : Int := 3600000000000
  interval : Int := 60000000000

/-- The start of the first window, for a call of `Window` at time `now` (window.go:27-29). -/
def windowBegin (c : WindowCfg) (now : Int) : Int := c.start.getD (now - c.width)

/-- What `Window` does after the visitor has answered `more` (window.go:38-41): the start of the
next window, `none` if it returns. -/
def windowStep (c : WindowCfg) (start : Int) (more : Bool) : Option Int :=
  if more then some (start + c.interval) else none

/-- `Window` (window.go:16-43): the arguments of the `k`-th call of the walker. -/
def windowCall (start width interval : Int) : Nat → Int × Int
  | 0 => (start, start + width)
  | k + 1 => windowCall (start + interval) width interval k

end LogCache
