import Verif.Model.Auth
/-!
# Queries by the name of an app

Models the request of `GetRelatedSourceIds`, `/repo/internal/auth/capi_client.go:175-203`, and what
the Cloud Controller makes of it.
-/
namespace LogCache

/-- The value of the parameter `names`: `strings.Join(appNames, ",")` (capi_client.go:187). -/
def namesParam : List Str → Str
  | [] => []
  | [n] => n
  | n :: m :: ns => n ++ ',' :: namesParam (m :: ns)

/-- The Cloud Controller: whether it can be reached and decoded, and the apps it has with those
who may see them. Outside of the code, reached from `capi_client.go:194`. -/
structure Capi where
  up : Bool
  apps : List Resource
  sees : Str → Resource → Bool

/-- What `GET /v3/apps?names=…` lists (capi_client.go:180-198): `names` is a list separated by
commas, as the documentation of the Cloud Controller has it; all pages together (C67). -/
def Capi.listApps (k : Capi) (names token : Str) : Option (List Resource) :=
  if k.up then some (k.apps.filter fun r => k.sees token r && (splitOn ',' names).contains r.name) else none

/-- `GetRelatedSourceIds` (capi_client.go:175-203). -/
def Capi.related (k : Capi) (appNames : List Str) (token : Str) : Option Expansions :=
  some (relatedIds appNames (k.listApps (namesParam appNames) token))

end LogCache
