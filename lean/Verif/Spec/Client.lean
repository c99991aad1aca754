import Verif.Model.Client
import Verif.Spec.Num
/-! # What a user of the client library asks for -/
namespace LogCache.Spec

/-- The last value an option list gives, if any. -/
def lastSome {α : Type} (f : ReadOpt → Option α) : List ReadOpt → Option α
  | [] => none
  | o :: os => (lastSome f os).or (f o)

/-- The end time, limit, name filter, types an option gives; whether it asks for
descending order. -/
def endOf : ReadOpt → Option Int | .endTime t => some t | _ => none
def limitOf : ReadOpt → Option Int | .limit n => some n | _ => none
def nameOf : ReadOpt → Option Str | .nameFilter s => some s | _ => none
def typesOf : ReadOpt → List EType | .types ts => ts | _ => []
def isDesc : ReadOpt → Bool | .descending => true | _ => false

/-- The request that a Read with these options means: of each single-valued option the
last one counts, the envelope types of all options add up. -/
def asked (sourceId : Str) (start : Int) (opts : List ReadOpt) : ReadRequest :=
  { sourceId := sourceId
    start := start
    stop := (lastSome endOf opts).getD 0
    limit := (lastSome limitOf opts).getD 0
    types := opts.flatMap typesOf
    descending := opts.any isDesc
    nameFilter := (lastSome nameOf opts).getD [] }

/-- The number fits Go's `int64`. -/
def FitsInt64 (n : Int) : Prop := -2 ^ 63 ≤ n ∧ n < 2 ^ 63

/-- The numbers of an option fit Go's types. -/
def OptInRange : ReadOpt → Prop
  | .endTime t => FitsInt64 t
  | .limit n => FitsInt64 n
  | _ => True

/-- The option asks only for types the API knows. -/
def OptKnown : ReadOpt → Prop
  | .types ts => ∀ n, EType.other n ∉ ts
  | _ => True

/-! ## Tokens -/

/-- Call `i` relies on the client for its Authorization header. -/
def Own (evs : List OEv) (i : Nat) : Prop := OEv.called i none ∈ evs

/-- Did the request succeed? -/
def Success (status : Nat) : Prop := 200 ≤ status ∧ status < 300

/-- `Current evs t`: after `evs` the client should use the token `t`: it was the last
one fetched, and no request that relies on the client's token has failed since. -/
def Current (evs : List OEv) (t : Str) : Prop :=
  ∃ pre j post, evs = pre ++ .fetched j (some t) :: post ∧ (∀ k u, OEv.fetched k (some u) ∉ post) ∧
    ∀ k c, OEv.answered k (some c) ∈ post → Own evs k → Success c

end LogCache.Spec
