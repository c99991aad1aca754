import Verif.Model.Auth
import Verif.Model.Client
import Verif.Model.JsonText
import Verif.Model.Float

/-! # The texts the auth proxy reads from CAPI, UAA and tokens

`internal/auth/capi_client.go` and `internal/auth/uaa_client.go`; `Model/Auth.lean` starts
from what is decoded here. -/

namespace LogCache

/-- A letter without its case, as the names of fields are compared: ASCII letters, the long s
and the Kelvin sign.  Library code (`encoding/json`, from memory), reached from
`capi_client.go:257` and `uaa_client.go:266, 282`. -/
def foldLetter (c : Char) : Char :=
  if c = Char.ofNat 0x17F then 's' else if c = Char.ofNat 0x212A then 'k' else lowerChar c

/-- The field a struct takes from an object: names are compared without case.
Simplification: of several fields of a name the last one counts (Go merges objects and
elements of lists, and `null` leaves the value of an earlier field in place).
Library code (`encoding/json`, from memory), reached from `capi_client.go:257` and
`uaa_client.go:266, 282`. -/
def structField (fs : List (Str × Json)) (k : String) : Option Json :=
  (fs.reverse.find? fun p => decide (p.1.map foldLetter = k.toList)).map Prod.snd

/-- A string of a struct: a missing field and `null` leave it empty, other values are errors.
Library code, reached from `capi_client.go:257` and `uaa_client.go:266, 282`. -/
def structText (fs : List (Str × Json)) (k : String) : Option Str := match structField fs k with
  | none => some []
  | some .null => some []
  | some (.str s) => some s
  | some _ => none

/-- An object as the fields of a struct: a missing one and `null` leave all fields as they are.
Library code, reached from `capi_client.go:257` and `uaa_client.go:266, 282`. -/
def structObj : Option Json → Option (List (Str × Json))
  | none => some []
  | some .null => some []
  | some (.obj fs) => some fs
  | some _ => none

/-- A slice of a struct: a missing field and `null` leave it empty.
Library code, reached from `capi_client.go:257` and `uaa_client.go:266, 282`. -/
def structList {α : Type} (f : Json → Option α) : Option Json → Option (List α)
  | none => some []
  | some .null => some []
  | some (.arr xs) => traverse f xs
  | some _ => none

/-- One `resource`, `capi_client.go:205-208`. -/
def resourceOf (j : Json) : Option Resource :=
  (structObj (some j)).bind fun fs => (structText fs "guid").bind fun g =>
    (structText fs "name").map fun n => ⟨g, n⟩

/-- The body of a page: its resources and the address of the next one,
`capi_client.go:248-260`. -/
def capiPage (t : Str) : Option (List Resource × Str) :=
  (decodeJson t).bind fun j => (structObj (some j)).bind fun fs =>
    (structObj (structField fs "pagination")).bind fun ps =>
      (structObj (structField ps "next")).bind fun ns =>
        (structText ns "href").bind fun href =>
          (structList resourceOf (structField fs "resources")).map fun rs => (rs, href)

/-- What `doResourceRequest` makes of the answer to its request, `capi_client.go:231-269`;
`parse` is `url.Parse`. -/
def capiResp (parse : Str → Option Url) : HttpAns Str → CapiResp
  | .failed => .fail
  | .resp status body =>
    if status ≠ 200 then .fail
    else match body.bind capiPage with
      | none => .fail
      | some (rs, href) => .page rs (if href = [] then none else some (parse href))

/-- One `tokenKey`, `uaa_client.go:255-258`. -/
def keyOf (j : Json) : Option (Str × Str) :=
  (structObj (some j)).bind fun fs => (structText fs "kid").bind fun kid =>
    (structText fs "value").map fun v => (kid, v)

/-- `unmarshalTokenKeys`, `uaa_client.go:260-271`. -/
def tokenKeysOf (t : Str) : Option (List (Str × Str)) :=
  (decodeJson t).bind fun j => (structObj (some j)).bind fun fs => structList keyOf (structField fs "keys")

/-- What `RefreshTokenKeys` makes of the answer of UAA, `uaa_client.go:98-139`; `pem` reads
the text of an RSA key. -/
def uaaResp {κ : Type} (pem : Str → Option κ) : HttpAns Str → Option (List (Str × Option κ))
  | .failed => none
  | .resp status body =>
    if status ≠ 200 then none
    else (body.bind tokenKeysOf).map fun ks => ks.map fun p => (p.1, if p.2 = [] then none else pem p.2)

/-- A string in a list: `null` is the empty one. Library code, reached from `uaa_client.go:282`. -/
def scopeOf : Json → Option Str
  | .str s => some s
  | .null => some []
  | _ => none

/-- A number of a struct as a `float64`. Library code, reached from `uaa_client.go:282`. -/
def structFloat : Option Json → Option F64
  | none => some (.fin false 0 0)
  | some .null => some (.fin false 0 0)
  | some (.num t) => parseFloat t
  | some _ => none

/-- `time.Unix(sec, 0)` in nanoseconds since 1970: a `Time` counts seconds from the year 1 in
an `int64`. Library code (from memory), reached from `uaa_client.go:286`. -/
def unixTime (sec : Int) : Int := (wrap64 (sec + 62135596800) - 62135596800) * 1000000000

/-- `decodeToken`, `uaa_client.go:273-289`; the time is in nanoseconds. -/
def tokenPayload (t : Str) : Option TokenPayload :=
  (decodeJson t).bind fun j => (structObj (some j)).bind fun fs => (structText fs "value").bind fun _ =>
    (structList scopeOf (structField fs "scope")).bind fun scope =>
      (structFloat (structField fs "exp")).map fun exp => ⟨scope, unixTime exp.toInt64⟩

end LogCache
