import Verif.Model.Nozzle
import Verif.Model.Proxy

/-!
# The requests of the nozzle
-/

namespace LogCache

/-- The request of `envelopeWriter` for a batch, `internal/nozzle/nozzle.go:165-169`. -/
def nozzleWrite (batch : List Envelope) : SendRequest := { envelopes := some batch }

end LogCache
