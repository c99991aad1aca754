import Verif.Model.Options
import Verif.Spec.Client
/-! # What a list of options means -/
namespace LogCache.Spec

/-- The value the last option of a kind gives, or else the default. -/
def givenLast {ο α : Type} (f : ο → Option α) (opts : List ο) (dflt : α) : α :=
  ((opts.filterMap f).getLast?).getD dflt

/-- The request, at `start`, that a walk with these options means: until the end given last, of
as many envelopes as given last, of the types and the name filter given last, oldest first. Zero
for an end or a limit that is not given. -/
def walkAsks (sourceId : Str) (start : Int) (opts : List WalkOpt) : ReadRequest :=
  { sourceId := sourceId
    start := start
    stop := (givenLast (fun | .stop t => some t | _ => none) opts none).getD 0
    limit := givenLast (fun | .limit n => some n | _ => none) opts 0
    types := givenLast (fun | .types ts => some ts | _ => none) opts []
    descending := false
    nameFilter := givenLast (fun | .nameFilter s => some s | _ => none) opts [] }

/-- The numbers of an option fit Go's types, and it names only types the API knows. -/
def WalkOptFits : WalkOpt → Prop
  | .stop (some t) => FitsInt64 t
  | .limit n => FitsInt64 n
  | .types ts => ∀ n, EType.other n ∉ ts
  | _ => True

end LogCache.Spec
