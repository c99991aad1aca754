import Verif.Model.SyslogStream
/-!
# `/repo/internal/syslog/server.go`: several connections at once

`Start` accepts connections and serves each in a goroutine of its own; what they share is the
process, the two counters and the client of log-cache.
-/
namespace LogCache

/-- A connection and the results of its parser that are still to be handled: the parser calls
the listener for one result after the other (`server.go:102-116`). -/
structure SrvConn where
  conn : SyslogConn
  todo : List SyslogIn := []

/-- The server: whether it accepts connections, its connections by number, its counters and
what it sent (`server.go:23-34, 80-100`). -/
structure SyslogSrv where
  listening : Bool := true
  conns : Nat → Option SrvConn := fun _ => none
  shared : SyslogState := {}

/-- What happens in the server, in any order: a connection is accepted or accepting one fails
(`server.go:92-99`), something happens on a connection, or the goroutine of a connection handles
its next result, with a send that succeeds or not (`server.go:125-152`). -/
inductive SrvEvent where
  | accept (id : Nat) (now : Int)
  | acceptFails
  | net (id : Nat) (e : ConnEvent)
  | handle (id : Nat) (ok : Bool)

/-- One of these steps; `none`: the process ends with a panic, which in Go is what a panic in
any goroutine does. After a failed accept `Start` returns and closes the listener; the process
goes on (`server.go:86, 94-97`, `cmd/syslog-server/main.go:60-63`). A goroutine reads on only
when it has handled all results. Simplification: handling a result is one step. -/
def srvStep (max : Nat) (parse : List UInt8 → Option SyslogMsg) (pf : Str → Option Int) (idle : Int) (s : SyslogSrv) :
    SrvEvent → Option SyslogSrv
  | .accept id now =>
    if s.listening && (s.conns id).isNone then
      some { s with conns := fun i => if i = id then some { conn := newConn idle now } else s.conns i }
    else some s
  | .acceptFails => some { s with listening := false }
  | .net id e => match s.conns id with
    | some ⟨c, []⟩ =>
      let x := connStep max parse idle c e
      some { s with conns := fun i => if i = id then some ⟨x.2, x.1⟩ else s.conns i }
    | _ => some s
  | .handle id ok => match s.conns id with
    | some ⟨c, r :: rest⟩ => match parseListener pf ok s.shared r with
      | none => none
      | some sh => some { s with shared := sh, conns := fun i => if i = id then some ⟨c, rest⟩ else s.conns i }
    | _ => some s

/-- A history. Models `server.go:80-152`. -/
def srvRun (max : Nat) (parse : List UInt8 → Option SyslogMsg) (pf : Str → Option Int) (idle : Int) :
    SyslogSrv → List SrvEvent → Option SyslogSrv
  | s, [] => some s
  | s, e :: es => match srvStep max parse pf idle s e with
    | none => none
    | some s' => srvRun max parse pf idle s' es

end LogCache
