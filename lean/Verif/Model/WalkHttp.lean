import Verif.Model.Walk
import Verif.Model.Client

/-!
# The options with which a walk reads (`/repo/pkg/client/walk.go`)
-/

namespace LogCache

/-- `readOpts` (walk.go:39-54): the options that `Walk` hands to each of its reads, in this
order. An end time of zero, a nil limit, nil types and an empty name filter give no option. -/
def walkOpts (c : WalkCfg) : List ReadOpt :=
  (match c.stop with | some t => [.endTime t] | none => []) ++
  (match c.limit with | some n => [.limit n] | none => []) ++
  (match c.types with | some ts => [.types ts] | none => []) ++
  (if c.nameFilter = [] then [] else [.nameFilter c.nameFilter])

end LogCache
