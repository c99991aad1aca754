/-!
# Starting and stopping servers

The syslog server (`/repo/internal/syslog/server.go:80-123`, `282-300`) with its connections,
and the gRPC server of a node (`/repo/internal/cache/log_cache.go:150-163`, `243-251`).  What
runs at the same time is interleaved: every event below is one step of one goroutine.
-/
namespace LogCache

/-! ## The syslog server -/

/-- Where the goroutine of `Start` is (server.go:80-100): not called, after `tls.Listen`
(line 82), in the loop (line 92), after `Accept` failed (line 96), returned. -/
inductive StartAt where
  | before
  | bound
  | accepting
  | leaving
  | over
  deriving DecidableEq

/-- The state of a syslog server (server.go:24-34): the time, where `Start` is, whether `s.l` is
set, whether the listener is open, and the open connections with the deadlines of their
reads. -/
structure SyslogLife where
  now : Int
  start : StartAt := .before
  held : Bool := false
  listening : Bool := false
  conns : List (Nat × Int) := []

/-- What happens at a syslog server (server.go:80-123, 282-300). A connection is given by a
number. -/
inductive LifeEvent where
  /-- `tls.Listen` succeeds (line 82). -/
  | listen
  /-- `s.l = l` (line 89). -/
  | hold
  /-- `Accept` returns a connection (lines 93, 98). -/
  | accept (c : Nat)
  /-- `Accept` returns an error (lines 94-96). -/
  | acceptFails
  /-- The deferred `Stop` of `Start` (line 86). -/
  | leave
  /-- A call of `Stop` (lines 292-300). -/
  | stop
  /-- A call of `Addr` (lines 282-290): did it return an address? -/
  | addr (some : Bool)
  /-- A message of a connection has been read and handled (lines 111-116). -/
  | message (c : Nat)
  /-- A read of a connection runs into its deadline, and the connection is closed (lines 103,
  108). -/
  | timeout (c : Nat)
  /-- The other side ends the connection, or sends what is no frame. -/
  | hangup (c : Nat)
  deriving DecidableEq

/-- `Stop` (server.go:292-300): without a listener it does nothing. -/
def SyslogLife.stopped (s : SyslogLife) : SyslogLife :=
  if s.held then { s with held := false, listening := false } else s

/-- `setReadDeadline` (server.go:118-123). -/
def SyslogLife.setDeadline (idle : Int) (s : SyslogLife) (c : Nat) : SyslogLife :=
  { s with conns := s.conns.filter (fun x => x.1 ≠ c) ++ [(c, s.now + idle)] }

/-- One step of a syslog server with the idle timeout `idle` (server.go:80-123, 282-300).
`Accept` can fail at any time, and does not succeed once the listener is closed. A read
succeeds before its deadline.  Simplifications: `Start` is called once, as in
`cmd/syslog-server/main.go:60`; handling a message takes no time (the client of the node
puts it into a buffer), and neither does starting the goroutine of a connection. -/
inductive LifeStep (idle : Int) : SyslogLife → LifeEvent → SyslogLife → Prop
  | listen {s : SyslogLife} : s.start = .before → LifeStep idle s .listen { s with start := .bound, listening := true }
  | hold {s : SyslogLife} : s.start = .bound → LifeStep idle s .hold { s with start := .accepting, held := true }
  | accept {s : SyslogLife} {c : Nat} : s.start = .accepting → s.listening = true → (∀ x ∈ s.conns, x.1 ≠ c) →
      LifeStep idle s (.accept c) (s.setDeadline idle c)
  | acceptFails {s : SyslogLife} : s.start = .accepting → LifeStep idle s .acceptFails { s with start := .leaving }
  | leave {s : SyslogLife} : s.start = .leaving → LifeStep idle s .leave { s.stopped with start := .over }
  | stop {s : SyslogLife} : LifeStep idle s .stop s.stopped
  | addr {s : SyslogLife} {b : Bool} : b = s.held → LifeStep idle s (.addr b) s
  | message {s : SyslogLife} {c : Nat} {d : Int} : (c, d) ∈ s.conns → s.now < d →
      LifeStep idle s (.message c) (s.setDeadline idle c)
  | timeout {s : SyslogLife} {c : Nat} {d : Int} : (c, d) ∈ s.conns → d ≤ s.now →
      LifeStep idle s (.timeout c) { s with conns := s.conns.filter (fun x => x.1 ≠ c) }
  | hangup {s : SyslogLife} {c : Nat} {d : Int} : (c, d) ∈ s.conns →
      LifeStep idle s (.hangup c) { s with conns := s.conns.filter (fun x => x.1 ≠ c) }

/-- A history of a syslog server: the times of its events never go back
(server.go:80-123, 282-300). -/
inductive LifeRun (idle : Int) (t0 : Int) : List (Int × LifeEvent) → SyslogLife → Prop
  | nil : LifeRun idle t0 [] { now := t0 }
  | snoc {evs : List (Int × LifeEvent)} {s s' : SyslogLife} {t : Int} {e : LifeEvent} : LifeRun idle t0 evs s →
      s.now ≤ t → LifeStep idle { s with now := t } e s' → LifeRun idle t0 (evs ++ [(t, e)]) s'

/-! ## The server of a node -/

/-- Where the goroutine with the server of a node is (log_cache.go:243-251): `Start` has not been
called, the server is made and not yet serving, it serves, `Serve` has returned with or
without an error, the goroutine has ended. -/
inductive ServeAt where
  | absent
  | ready
  | serving
  | returned (err : Bool)
  | ended
  deriving DecidableEq

/-- The state of a node's server (log_cache.go:37, 158-163, 243-251): where its goroutine is,
`closing`, the calls of `Close` between their two steps, whether `GracefulStop` has begun, the
requests in work, and whether the process has crashed. -/
structure ServeLife where
  at_ : ServeAt := .absent
  closing : Nat := 0
  closers : Nat := 0
  stopped : Bool := false
  requests : List Nat := []
  crashed : Bool := false

/-- What happens at a node's server (log_cache.go:150-163, 243-251). -/
inductive ServeEvent where
  /-- `Start` (lines 150-156) returns. -/
  | start
  /-- `atomic.AddInt64(&c.closing, 1)` in `Close` (line 160). -/
  | closeFlag
  /-- `c.server.GracefulStop()` in `Close` begins (line 161). -/
  | closeStop
  /-- `Close` returns (line 162). -/
  | closed
  /-- The goroutine calls `Serve` (line 248). -/
  | serve
  /-- `Serve` returns because the server is stopped. -/
  | serveStopped
  /-- `Serve` returns because of an error of the listener. -/
  | serveFails
  /-- The goroutine looks at what `Serve` returned and at `closing` (lines 248-250). -/
  | check
  /-- A request begins. -/
  | request (r : Nat)
  /-- A request has been answered. -/
  | answered (r : Nat)
  deriving DecidableEq

/-- One step of a node's server (log_cache.go:150-163, 243-251). `GracefulStop` is library code:
it lets no more requests begin, and returns when those in work are answered; whether `Serve`
then returns an error depends on the version.  A server stopped before it serves returns an
error at once.  Simplification: `Start` is called at most once. -/
inductive ServeStep : ServeLife → ServeEvent → ServeLife → Prop
  | start {s : ServeLife} : s.at_ = .absent → ServeStep s .start { s with at_ := .ready }
  | closeFlag {s : ServeLife} :
      ServeStep s .closeFlag { s with closing := s.closing + 1, closers := s.closers + 1 }
  | closeStop {s : ServeLife} : 0 < s.closers → ServeStep s .closeStop
      (if s.at_ = .absent then { s with closers := s.closers - 1, crashed := true }
        else { s with closers := s.closers - 1, stopped := true })
  | closed {s : ServeLife} : s.stopped = true → s.requests = [] → ServeStep s .closed s
  | serve {s : ServeLife} : s.at_ = .ready →
      ServeStep s .serve { s with at_ := if s.stopped then .returned true else .serving }
  | serveStopped {s : ServeLife} {err : Bool} : s.at_ = .serving → s.stopped = true →
      ServeStep s .serveStopped { s with at_ := .returned err }
  | serveFails {s : ServeLife} : s.at_ = .serving → ServeStep s .serveFails { s with at_ := .returned true }
  | check {s : ServeLife} {err : Bool} : s.at_ = .returned err → ServeStep s .check
      { s with at_ := .ended, crashed := s.crashed || (err && decide (s.closing = 0)) }
  | request {s : ServeLife} {r : Nat} : s.at_ = .serving → s.stopped = false → r ∉ s.requests →
      ServeStep s (.request r) { s with requests := r :: s.requests }
  | answered {s : ServeLife} {r : Nat} : r ∈ s.requests →
      ServeStep s (.answered r) { s with requests := s.requests.filter (· ≠ r) }

/-- A history of a node's server (log_cache.go:150-163, 243-251); a crash ends it. -/
inductive ServeRun : List ServeEvent → ServeLife → Prop
  | nil : ServeRun [] {}
  | snoc {evs : List ServeEvent} {s s' : ServeLife} {e : ServeEvent} : ServeRun evs s → s.crashed = false →
      ServeStep s e s' → ServeRun (evs ++ [e]) s'

end LogCache
