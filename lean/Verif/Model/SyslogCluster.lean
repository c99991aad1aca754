import Verif.Model.Proxy

/-!
# The requests of the syslog server

`cmd/syslog-server/main.go:49-58`: the server writes what it received through a
`BatchedIngressClient` to the node at `LOG_CACHE_ADDR`, as nodes do among each other.
-/

namespace LogCache

/-- The request for a batch of envelopes received over syslog
(`internal/syslog/server.go:138-145` hands them to the client,
`internal/routing/batched_ingress_client.go:74-89` sends them). -/
def syslogWrite (batch : List Envelope) : SendRequest := batchedWrite batch

end LogCache
