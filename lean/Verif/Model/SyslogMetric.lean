import Verif.Model.SyslogStream
import Verif.Model.Protobuf

/-! # Values of gauges sent over syslog -/

namespace LogCache

/-- `strconv.ParseFloat` at `/repo/internal/syslog/server.go:246`: the bits of the value. -/
def syslogFloat (s : Str) : Option Int := (parseFloat s).map fun x => (f64Bits x : Int)

end LogCache
