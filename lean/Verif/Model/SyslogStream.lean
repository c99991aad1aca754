import Verif.Model.SyslogParse

/-!
# Syslog connections

`/repo/internal/syslog/server.go:80-123`: a connection is read by the octet-counting parser
of `github.com/influxdata/go-syslog` (from memory): frames of a length, a space and a message
of that many octets.  The parser stops at the first error, and the connection is closed.
`max` is the size of the parser's read buffer, about 8 KiB.
-/

namespace LogCache

/-- The character an ASCII octet stands for. Library code, reached from `server.go:102-109`. -/
def octetChar (b : UInt8) : Char := Char.ofNat b.toNat

/-- Library code, reached from `server.go:102-109`. -/
def digitOctet (b : UInt8) : Bool := isDecimal (octetChar b)

/-- What can be said about the octets read so far: wait for more, an error, or a frame.
Library code, reached from `server.go:102-109`. -/
inductive FrameScan where
  | more
  | bad
  | frame (m rest : List UInt8)
deriving DecidableEq

/-- The scanner of the library: digits without leading zero, a space, and as many octets as
the number says.  Simplification: an octet 0 among the digits, which the library takes for
the end of the stream, is an error. Library code, reached from `server.go:102-109`. -/
def scanFrame (max : Nat) (buf : List UInt8) : FrameScan :=
  let ds := buf.takeWhile digitOctet
  if ds.head? = some 48 then .bad
  else match buf.dropWhile digitOctet with
    | [] => .more
    | b :: rest =>
      if ds = [] ∨ b ≠ 32 then .bad
      else match parseDigits (ds.map octetChar) with
        | none => .bad
        | some n =>
          if max < n then (if rest.length < max then .more else .bad)
          else if rest.length < n then .more
          else .frame (rest.take n) (rest.drop n)

theorem scanFrame_shorter {max : Nat} {buf m rest : List UInt8} (h : scanFrame max buf = .frame m rest) :
    rest.length < buf.length := by
  unfold scanFrame at h
  simp only at h
  split at h
  · cases h
  · split at h
    · cases h
    · rename_i b r hr
      have hb : r.length < buf.length := by
        have := (List.dropWhile_suffix (l := buf) digitOctet).length_le
        rw [hr] at this
        exact this
      split at h
      · cases h
      · split at h
        · cases h
        · split at h
          · split at h <;> cases h
          · split at h
            · cases h
            · injection h with _ h
              rw [← h, List.length_drop]
              omega

/-- All frames that are complete: their results, and the octets left over; `none` when the
connection is closed.  After a message (`started`), the octet 0 counts as the end of the
stream. Library code, reached from `server.go:102-109`. -/
def drainFrames (max : Nat) (parse : List UInt8 → Option SyslogMsg) (started : Bool) (buf : List UInt8) :
    List SyslogIn × Option (List UInt8) :=
  if started = true ∧ buf.head? = some 0 then ([], none)
  else match h : scanFrame max buf with
  | .more => ([], some buf)
  | .bad => ([.bad], none)
  | .frame m rest => match parse m with
    | none => ([.bad], none)
    | some msg =>
      let x := drainFrames max parse true rest
      (.msg msg :: x.1, x.2)
termination_by buf.length
decreasing_by exact scanFrame_shorter h

/-- A connection: the octets not yet used, `none` once it is closed; whether a message has
arrived; and the deadline for reading. Library code, reached from `server.go:102-109`. -/
structure SyslogConn where
  buf : Option (List UInt8) := some []
  started : Bool := false
  deadline : Int

/-- Octets arrive. Library code, reached from `server.go:102-109`. -/
def connFeed (max : Nat) (parse : List UInt8 → Option SyslogMsg) (chunk : List UInt8) (s : SyslogConn) :
    List SyslogIn × SyslogConn :=
  match s.buf with
  | none => ([], s)
  | some buf =>
    let x := drainFrames max parse s.started (buf ++ chunk)
    (x.1, { s with buf := x.2, started := s.started || !x.1.isEmpty })

/-- The stream ends: no error between two messages.
Library code, reached from `server.go:102-109`. -/
def connEnd (s : SyslogConn) : List SyslogIn × SyslogConn :=
  match s.buf with
  | none => ([], s)
  | some buf => (if s.started && buf.isEmpty then [] else [.bad], { s with buf := none })

/-- What happens on a connection: octets arrive at some time, or the sender closes it.
Library code, reached from `server.go:102-109`. -/
inductive ConnEvent where
  | data (now : Int) (chunk : List UInt8)
  | close

/-- `handleConnection`, `server.go:102-109`, with `parseListenerForConnection` and
`setReadDeadline`, `server.go:111-123`: the deadline moves with every result.  A read after
the deadline fails, which is the end of the stream.  Simplification: handling a result takes
no time. -/
def connStep (max : Nat) (parse : List UInt8 → Option SyslogMsg) (idle : Int) (s : SyslogConn) :
    ConnEvent → List SyslogIn × SyslogConn
  | .close => connEnd s
  | .data now chunk =>
    if s.deadline < now then connEnd s
    else
      let x := connFeed max parse chunk s
      (x.1, if x.1.isEmpty then x.2 else { x.2 with deadline := now + idle })

/-- The results of a connection accepted at time `now`.
Library code, reached from `server.go:102-109`. -/
def connRun (max : Nat) (parse : List UInt8 → Option SyslogMsg) (idle : Int) :
    SyslogConn → List ConnEvent → List SyslogIn
  | _, [] => []
  | s, e :: es => (connStep max parse idle s e).1 ++ connRun max parse idle (connStep max parse idle s e).2 es

/-- A new connection, `server.go:102-104`. -/
def newConn (idle now : Int) : SyslogConn := { deadline := now + idle }

/-- The RFC 5424 parser on octets: text must be valid UTF-8.
Library code, reached from `server.go:102-109`. -/
def parseOctets (bs : List UInt8) : Option SyslogMsg :=
  match bs.toByteArray.utf8Decode? with
  | none => none
  | some cs => parseRfc5424 cs.toList

end LogCache
