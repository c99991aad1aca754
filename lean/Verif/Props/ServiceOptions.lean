import Verif.Model.ServiceOptions
import Verif.Props.Options
import Verif.Props.Semver
import Verif.Proof.Maps
/-! # The options of the services, and what the commands make of their settings -/
namespace LogCache
open Spec

/-- A gateway's options count as given last; without them it has no version, dials without
options and does not block. -/
theorem C153_gateway (opts : List GatewayOpt) :
    newGateway opts =
      { block := givenLast (fun | .block => some true | _ => none) opts false
        dial := givenLast (fun | .dial os => some os | _ => none) opts []
        version := givenLast (fun | .version v => some v | _ => none) opts []
        uptime := givenLast (fun | .uptime f => some f | _ => none) opts "uptimeInSeconds".toList } := by
  have h1 := foldl_given GatewayOpt.apply (fun | .block => some true | _ => none) (fun p : GatewayParams => p.block)
    (fun c o => by cases o <;> rfl) opts {}
  have h2 := foldl_given GatewayOpt.apply (fun | .dial d => some d | _ => none) (fun p : GatewayParams => p.dial)
    (fun c o => by cases o <;> rfl) opts {}
  have h3 := foldl_given GatewayOpt.apply (fun | .version d => some d | _ => none)
    (fun p : GatewayParams => p.version) (fun c o => by cases o <;> rfl) opts {}
  have h4 := foldl_given GatewayOpt.apply (fun | .uptime d => some d | _ => none) (fun p : GatewayParams => p.uptime)
    (fun c o => by cases o <;> rfl) opts {}
  simp only at h1 h2 h3 h4
  rw [← h1, ← h2, ← h3, ← h4]
  rfl

/-- The client library reads from a gateway at the path that belongs to the version the gateway
was given last. -/
theorem C153_gateway_read {opts : List GatewayOpt} {v : Semver}
    (h : IsVersion (givenLast (fun | .version v => some v | _ => none) opts []) v) (uptime : Int)
    (ans : HttpAns (List Envelope)) (sourceId : Str) (start : Int) (ropts : List ReadOpt) :
    (httpRead semverParse (infoAns (newGateway opts).version uptime "version") ans sourceId start ropts).1 =
      [{ path := "/api/v1/info".toList },
       { path := (if v.major < 2 ∨ v = ⟨2, 0, 0, true⟩ then "/v1/read/".toList else "/api/v1/read/".toList) ++ sourceId,
         params := httpReadParams start ropts }] := by
  rw [C153_gateway]
  exact C142_path h uptime ans sourceId start ropts

/-- From a gateway that was never given a version the client library reads nothing. -/
theorem C153_gateway_unversioned {opts : List GatewayOpt} (h : ∀ v, GatewayOpt.version v ∉ opts) (uptime : Int)
    (ans : HttpAns (List Envelope)) (sourceId : Str) (start : Int) (ropts : List ReadOpt) :
    httpRead semverParse (infoAns (newGateway opts).version uptime "version") ans sourceId start ropts =
      ([{ path := "/api/v1/info".toList }], none) := by
  have hv : (newGateway opts).version = [] := by
    rw [C153_gateway]
    show givenLast (fun | .version v => some v | _ => none) opts ([] : Str) = []
    have : opts.filterMap (fun | GatewayOpt.version v => some v | _ => none) = ([] : List Str) := by
      rw [List.filterMap_eq_nil_iff]
      intro o ho
      cases o with
      | version v => exact absurd ho (h v)
      | _ => rfl
    unfold givenLast
    rw [this]
    rfl
  rw [hv]
  refine C142_refused (fun c hc => absurd hc (by simp)) (fun v hv => ?_) uptime ans sourceId start ropts
  have := (semverParse_iff [] v).2 hv
  rw [show semverParse [] = none from by decide] at this
  exact nomatch this

/-- What the gateway command makes of its settings. -/
theorem C153_gateway_command (version : Str) :
    newGateway (gatewayCommandOpts version) =
      { block := false, dial := ["tls".toList], version := version, uptime := "uptimeInSeconds".toList } := rfl

/-- The list of sources that CAPI gave for a token at `now` answers for that token, without CAPI
being asked, exactly until the expiration given last has passed, or a minute. -/
theorem C153_capi (opts : List CapiOpt) (cache : TokenCache) (now at' : Int) (sourceId token : Str) (ids : List Str)
    (retry : Nat) (hi : sourceId ∈ ids) (rest : List Str) (at2 : Int) :
    isAuthorized (newCapiClient opts).expire
        (authStore (newCapiClient opts).expire cache now token ids retry) at' at2 sourceId token rest =
      (if at' < now + givenLast (fun | .expire d => some d | _ => none) opts 60000000000 then
        (true, false, authStore (newCapiClient opts).expire cache now token ids retry)
      else (decide (sourceId ∈ rest), true,
        authStore (newCapiClient opts).expire (authStore (newCapiClient opts).expire cache now token ids retry)
          at2 token rest 0)) ∧
    (newCapiClient opts).prune = givenLast (fun | .prune d => some d | _ => none) opts 60000000000 := by
  have h1 : (newCapiClient opts).expire = givenLast (fun | .expire d => some d | _ => none) opts 60000000000 :=
    foldl_given CapiOpt.apply _ (fun p : CapiParams => p.expire) (fun c o => by cases o <;> rfl) opts {}
  have h2 : (newCapiClient opts).prune = givenLast (fun | .prune d => some d | _ => none) opts 60000000000 :=
    foldl_given CapiOpt.apply _ (fun p : CapiParams => p.prune) (fun c o => by cases o <;> rfl) opts {}
  refine ⟨?_, h2⟩
  rw [← h1]
  have hl : (authStore (newCapiClient opts).expire cache now token ids retry).lookup token =
      some { ids := ids, retry := retry, expires := now + (newCapiClient opts).expire } := by
    unfold authStore
    rw [mapSet_lookup, if_pos rfl]
  unfold isAuthorized authLoad
  rw [hl]
  by_cases ht : at' < now + (newCapiClient opts).expire
  · simp only [ht, if_true, hi]
  · simp only [ht, if_false]

/-- What the auth proxy's command makes of its settings, and the default of the UAA client, which
it takes. -/
theorem C153_auth_command (prune expire : Int) (uopts : List UaaOpt) :
    newCapiClient (capiCommandOpts prune expire) = { prune := prune, expire := expire } ∧
    newUaaClient uopts = givenLast (fun o => some o.minimum) uopts 30000000000 :=
  ⟨rfl, foldl_given (fun (_ : Int) (o : UaaOpt) => o.minimum) (fun o => some o.minimum) (fun x => x) (fun _ _ => rfl) uopts _⟩

/-- The meta information of a node, or of all, that was fetched at `now` is given out again
exactly until the duration given last has passed, or a second. -/
theorem C153_meta {ρ : Type} (opts : List ReadProxyOpt) (s : MetaState ρ) (isLocal : Bool) (now later : Int) (r : ρ) :
    metaLoad (metaFinish (newReadProxy opts) s isLocal now (some r)).1 isLocal later =
      if later ≤ now + givenLast (fun o => some o.keep) opts 1000000000 then some r else none := by
  have h : newReadProxy opts = givenLast (fun o => some o.keep) opts 1000000000 :=
    foldl_given (fun (_ : Int) (o : ReadProxyOpt) => o.keep) (fun o => some o.keep) (fun x => x) (fun _ _ => rfl) opts _
  rw [← h]
  cases isLocal <;>
    · simp only [metaFinish, metaLoad, metaExpired, if_true, Bool.false_eq_true, if_false, Option.map_some]
      by_cases hl : later ≤ now + newReadProxy opts
      · rw [if_pos hl, if_neg (by simp; omega)]
      · rw [if_neg hl, if_pos (by simp; omega)]

/-- What an auth proxy does with a request: the access middleware given last comes before the
authorization given last, in whatever order the two are given; without them a request is sent on
as it is. -/
theorem C153_proxy (opts : List ProxyOpt) (r : WebReq) :
    (newAuthProxy opts).handler r =
      givenLast (fun | .access m => some m | _ => none) opts (fun h => h)
        (givenLast (fun | .auth m => some m | _ => none) opts (fun h => h) fun r => [.forwarded r]) r := by
  have h1 : (newAuthProxy opts).auth = givenLast (fun | .auth m => some m | _ => none) opts (fun h => h) :=
    foldl_given ProxyOpt.apply _ (fun p : ProxyParams => p.auth) (fun c o => by cases o <;> rfl) opts {}
  have h2 : (newAuthProxy opts).access = givenLast (fun | .access m => some m | _ => none) opts (fun h => h) :=
    foldl_given ProxyOpt.apply _ (fun p : ProxyParams => p.access) (fun c o => by cases o <;> rfl) opts {}
  unfold ProxyParams.handler
  rw [h1, h2]

/-- The proxy of the command sends on exactly the requests its authorization lets through, and
writes each request, refused or not, to the log if there is one. -/
theorem C153_proxy_command (may : WebReq → Bool) (securityLog : Str) (r : WebReq) :
    (proxyOfCommand may securityLog).handler r =
      (if securityLog = [] then [] else [.logged r]) ++ [if may r then .forwarded r else .refused r] := by
  unfold proxyOfCommand
  by_cases h : securityLog = [] <;> by_cases hm : may r = true <;>
    simp [h, hm, newAuthProxy, ProxyOpt.apply, ProxyParams.handler, gatedBy, accessLogged]

example : IsVersion (givenLast (fun | .version v => some v | _ => none)
    [GatewayOpt.version "1.4.7".toList, .block, .version "2.3.1".toList] []) ⟨2, 3, 1, false⟩ :=
  (semverParse_iff _ _).1 (by decide)

example : ∀ v, GatewayOpt.version v ∉ [GatewayOpt.block, .dial []] := by simp

example : newReadProxy [⟨5⟩, ⟨7⟩] = 7 ∧ newReadProxy [] = 1000000000 := ⟨rfl, rfl⟩

end LogCache
