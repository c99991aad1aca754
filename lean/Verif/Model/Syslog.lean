import Verif.Model.Num
import Verif.Model.Promql

/-!
# The syslog server (`internal/syslog/server.go`)

The octet-counting RFC 5424 parser (library) delivers parsed messages.  Its fields
are pointers; `none` is a nil pointer, and dereferencing it crashes the process:
the result `none` of `convertToEnvelope`.
-/

namespace LogCache

/-- A parsed message, the `syslog.Message` of the library as used at
`server.go:154-187`.  `timestamp` is the number of nanoseconds since 1970, any
integer.  The structured data is a Go map; the list is its iteration order. -/
structure SyslogMsg where
  procId : Option Str := none
  appname : Option Str := none
  timestamp : Option Int := none
  structuredData : Option (List (Str × List (Str × Str))) := none
  message : Option Str := none
  priority : Option Nat := none
deriving DecidableEq, Repr

/-- `msg[k]` for a Go map of strings: the empty string for missing keys.
Models `server.go:189-261`. -/
def mapGet (m : List (Str × Str)) (k : Str) : Str := (m.lookup k).getD []

/-- `unicode.IsSpace`, for `strings.TrimSpace` at `server.go:181`. -/
def goIsSpace (c : Char) : Bool :=
  let n := c.toNat
  (0x09 ≤ n && n ≤ 0x0d) || n = 0x20 || n = 0x85 || n = 0xa0 || n = 0x1680 ||
    (0x2000 ≤ n && n ≤ 0x200a) || n = 0x2028 || n = 0x2029 || n = 0x202f || n = 0x205f || n = 0x3000

/-- `strings.TrimFunc`. Library code, reached from `server.go:181`. -/
def trimWith (f : Char → Bool) (s : Str) : Str :=
  ((s.dropWhile f).reverse.dropWhile f).reverse

/-- `strings.TrimSpace`. Library code, reached from `server.go:181`. -/
def trimSpace (s : Str) : Str := trimWith goIsSpace s

/-- `sourceTypeInstIdFromPID`, `server.go:271-280`. -/
def sourceTypeInstId (pid : Str) : Str × Str :=
  let toks := splitOn '/' (trimWith (fun c => c = '[' || c = ']') pid)
  (toks.headD [], toks.getLastD [])

/-- `convertTimer`, `server.go:189-209`. -/
def convertTimer (env : Envelope) (m : List (Str × Str)) : Option Envelope :=
  match parseInt64 (mapGet m "start".toList) with
  | none => none
  | some start => match parseInt64 (mapGet m "stop".toList) with
    | none => none
    | some stop => some { env with message := some (.timer (mapGet m "name".toList) start stop) }

/-- `convertEvent`, `server.go:211-220`. -/
def convertEvent (env : Envelope) (m : List (Str × Str)) : Option Envelope :=
  some { env with message := some (.event (mapGet m "title".toList) (mapGet m "body".toList)) }

/-- `convertCounter`, `server.go:222-239`. -/
def convertCounter (env : Envelope) (m : List (Str × Str)) : Option Envelope :=
  match parseUint64 (mapGet m "delta".toList) with
  | none => none
  | some delta => match parseUint64 (mapGet m "total".toList) with
    | none => none
    | some total => some { env with message := some (.counter (mapGet m "name".toList) delta total) }

/-- `convertGauge`, `server.go:241-261`; `pf` is `strconv.ParseFloat`. -/
def convertGauge (pf : Str → Option Int) (env : Envelope) (m : List (Str × Str)) : Option Envelope :=
  match m.lookup "unit".toList with
  | none => none
  | some unit => match pf (mapGet m "value".toList) with
    | none => none
    | some v => some { env with message := some (.gauge [(mapGet m "name".toList, ⟨unit, v⟩)]) }

/-- `strings.HasPrefix`. Library code, reached from `server.go:271-280`. -/
def hasPrefix (s p : Str) : Bool := p.isPrefixOf s

/-- The body of the loop over the structured data, `server.go:163-176`: it returns in
its first iteration. -/
def convertElement (pf : Str → Option Int) (env : Envelope) (x : Str × List (Str × Str)) : Option Envelope :=
  if hasPrefix x.1 "counter".toList then convertCounter env x.2
  else if hasPrefix x.1 "gauge".toList then convertGauge pf env x.2
  else if hasPrefix x.1 "event".toList then convertEvent env x.2
  else if hasPrefix x.1 "timer".toList then convertTimer env x.2
  else none

/-- `convertToEnvelope`, `server.go:154-187`, with `typeFromPriority`
(`server.go:263-269`).  Outer `none`: nil pointer dereference; inner `none`: error. -/
def convertToEnvelope (pf : Str → Option Int) (msg : SyslogMsg) : Option (Option Envelope) :=
  match msg.procId, msg.appname, msg.timestamp with
  | some pid, some app, some ts =>
    let env : Envelope :=
      { sourceId := app, timestamp := wrap64 ts, instanceId := (sourceTypeInstId pid).2 }
    match msg.structuredData with
    | some (x :: _) => some (convertElement pf env x)
    | _ => match msg.message, msg.priority with
      | some text, some prio => some (some
          { env with
            message := some (.log (trimSpace text) (prio == 11))
            tags := [("source_type".toList, (sourceTypeInstId pid).1)] })
      | _, _ => none
  | _, _, _ => none

/-- The state of the server as far as clients see it: its two counters and what it
sent to log-cache. Models `server.go:125-152`. -/
structure SyslogState where
  ingress : Nat := 0
  invalid : Nat := 0
  sent : List Envelope := []
deriving DecidableEq, Repr

/-- What the parser hands over (`syslog.Result`): an error or a message.
Models what `server.go:125` gets. -/
inductive SyslogIn where
  | bad
  | msg (m : SyslogMsg)

/-- `parseListener`, `server.go:125-152`; `ok`: the send succeeds.  `none`: crash. -/
def parseListener (pf : Str → Option Int) (ok : Bool) (s : SyslogState) : SyslogIn → Option SyslogState
  | .bad => some { s with invalid := s.invalid + 1 }
  | .msg m => match convertToEnvelope pf m with
    | none => none
    | some none => some { s with invalid := s.invalid + 1 }
    | some (some env) =>
      if ok then some { s with ingress := s.ingress + 1, sent := s.sent ++ [env] } else some s

/-- The messages of a history, one after the other. Models `server.go:125-152`. -/
def syslogRun (pf : Str → Option Int) (s : SyslogState) : List (SyslogIn × Bool) → Option SyslogState
  | [] => some s
  | (m, ok) :: rest => match parseListener pf ok s m with
    | none => none
    | some s' => syslogRun pf s' rest

end LogCache
