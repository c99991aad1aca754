import Verif.Model.Addresses
import Verif.Props.Config
/-! # Requests go to the configured addresses, and what becomes of paths in them -/
namespace LogCache
open Spec

private theorem full_text (t h p : Str) : t ++ "://".toList ++ h ++ p = t ++ ':' :: '/' :: '/' :: (h ++ p) := by simp

private theorem http_scheme {t : Str} (h : t = "http".toList ∨ t = "https".toList) :
    SchemeText t ∧ t.map lowerChar = t := by
  rcases h with rfl | rfl
  · exact ⟨⟨⟨'h', "ttp".toList, rfl, by decide⟩, by decide⟩, by decide⟩
  · exact ⟨https_scheme, https_lower⟩

/-- With the address `scheme://host[:port][/path]`, where the scheme is http or https, every
request of the client library and every request for a token goes to that host by that scheme, to
exactly the path of the API: the path of the address is left out. -/
theorem C161_client_partial {t h p : Str} (ht : t = "http".toList ∨ t = "https".toList) (hh : HostText h)
    (hp : p = [] ∨ ∃ r, p = '/' :: r) (_hplain : PlainAddr (t ++ "://".toList ++ h ++ p)) :
    (∀ path, clientSends (t ++ "://".toList ++ h ++ p) ('/' :: path) = some (t, h, '/' :: path)) ∧
    tokenSends (t ++ "://".toList ++ h ++ p) = some (t, h, "/oauth/token".toList) := by
  obtain ⟨hs, hl⟩ := http_scheme ht
  obtain ⟨-, hne, -⟩ := host_port hh
  have e := urlParse_full hs hh hp
  rw [hl] at e
  unfold clientSends tokenSends
  rw [full_text, e]
  refine ⟨fun path => ?_, ?_⟩ <;>
    · show httpSends _ = _
      unfold httpSends
      rw [if_pos ⟨ht, hne⟩]
      rfl

/-- The listings of CAPI are asked for under the path of the address, those of UAA's keys at the
root of the host. -/
theorem C161_auth_partial {t h p : Str} (ht : t = "http".toList ∨ t = "https".toList) (hh : HostText h)
    (hp : p = [] ∨ ∃ r, p = '/' :: r) (_hplain : PlainAddr (t ++ "://".toList ++ h ++ p)) :
    (∀ path, capiSends (t ++ "://".toList ++ h ++ p) ('/' :: path) = some (t, h, p ++ '/' :: path)) ∧
    uaaSends (t ++ "://".toList ++ h ++ p) = some (t, h, "/token_keys".toList) := by
  obtain ⟨hs, hl⟩ := http_scheme ht
  obtain ⟨-, hne, -⟩ := host_port hh
  have e := urlParse_full hs hh hp
  rw [hl] at e
  refine ⟨fun path => ?_, ?_⟩
  · unfold capiSends
    have hp' : p ++ '/' :: path = [] ∨ ∃ r, p ++ '/' :: path = '/' :: r := by
      rcases hp with rfl | ⟨r, rfl⟩
      · exact .inr ⟨path, rfl⟩
      · exact .inr ⟨r ++ '/' :: path, rfl⟩
    have e' := urlParse_full hs hh hp'
    rw [hl] at e'
    rw [full_text, show (t ++ ':' :: '/' :: '/' :: (h ++ p)) ++ '/' :: path =
      t ++ ':' :: '/' :: '/' :: (h ++ (p ++ '/' :: path)) by simp, e']
    show httpSends _ = _
    have hhead : (p ++ '/' :: path).head? = some '/' := by
      rcases hp with rfl | ⟨r, rfl⟩ <;> rfl
    unfold httpSends
    simp only [ht, hne, hhead, ne_eq, not_false_eq_true, and_self, if_true]
  · unfold uaaSends
    rw [full_text, e]
    show httpSends _ = _
    unfold httpSends
    rw [if_pos ⟨ht, hne⟩]
    rfl

/-- "Requests go under the path of the configured address" is false: the auth proxy sends Reads on
under the path of the gateway's address, but asks the same gateway for meta information, and for its
version before that, without it. -/
theorem C161_prefix_false {t h p : Str} (ht : SchemeText t) (hh : HostText h) (hp : ∃ c r, p = '/' :: c :: r)
    (hplain : PlainAddr (t ++ "://".toList ++ h ++ p)) :
    (∃ u, proxyTarget (t ++ "://".toList ++ h ++ p) = some u ∧ ∀ path,
      proxySends u ('/' :: path) =
        some ("https".toList, h, (if p.getLast? = some '/' then p.dropLast else p) ++ '/' :: path) ∧
      (if p.getLast? = some '/' then p.dropLast else p) ++ '/' :: path ≠ '/' :: path) ∧
    ∀ path, proxyMetaSends (t ++ "://".toList ++ h ++ p) ('/' :: path) = some ("https".toList, h, '/' :: path) := by
  obtain ⟨c, r, rfl⟩ := hp
  have hp : ('/' :: c :: r : Str) = [] ∨ ∃ q, ('/' :: c :: r : Str) = '/' :: q := .inr ⟨_, rfl⟩
  obtain ⟨-, hne, -⟩ := host_port hh
  constructor
  · obtain ⟨u, h1, h2⟩ := C120_url_partial ht hh hp hplain
    refine ⟨u, h1, fun path => ⟨h2 path, fun he => ?_⟩⟩
    have := congrArg List.length he
    split at this <;> simp only [List.length_append, List.length_cons, List.length_dropLast] at this <;> omega
  · intro path
    unfold proxyMetaSends clientSends
    rw [full_text, urlParse_full ht hh hp]
    have e2 : urlString ({ scheme := "https".toList, host := h, path := '/' :: c :: r } : GoUrl) =
        "https".toList ++ ':' :: '/' :: '/' :: (h ++ '/' :: c :: r) := by
      unfold urlString
      simp [hne]
    simp only [Option.bind_some]
    rw [e2, urlParse_full https_scheme hh hp, https_lower]
    show httpSends _ = _
    unfold httpSends
    simp [hne]

/-- `https://gateway:8081/cache` -/
example : SchemeText "https".toList ∧ HostText "gateway:8081".toList ∧ (∃ c r, "/cache".toList = '/' :: c :: r) ∧
    PlainAddr ("https".toList ++ "://".toList ++ "gateway:8081".toList ++ "/cache".toList) :=
  ⟨https_scheme, ⟨"gateway".toList, by decide, by decide, by decide, .inr ⟨"8081".toList, by decide, by decide, rfl⟩⟩,
    ⟨_, _, rfl⟩, by unfold PlainAddr; decide⟩

/-- With `name:port` for an address, the form that nodes and schedulers take, the clients make no
request that is sent. -/
theorem C161_port_false {name port : Str} (hn : SchemeText name) (hp : ∃ c cs, port = c :: cs ∧ ∀ d ∈ port, digit d) :
    (∀ path, clientSends (name ++ ':' :: port) path = none) ∧ (∀ path, capiSends (name ++ ':' :: port) path = none) ∧
    uaaSends (name ++ ':' :: port) = none ∧ tokenSends (name ++ ':' :: port) = none := by
  obtain ⟨c, cs, rfl, hd⟩ := hp
  have hc0 : c ≠ '/' := by
    rintro rfl
    exact absurd (hd '/' (by simp)) (by decide)
  have key : ∀ r, urlParse (name ++ ':' :: c :: r) = some { scheme := name.map lowerChar, opaq := c :: r } :=
    fun r => urlParse_named hn hc0
  refine ⟨fun path => ?_, fun path => ?_, ?_, ?_⟩
  · unfold clientSends
    rw [key]
    show httpSends _ = none
    unfold httpSends; simp
  · unfold capiSends
    rw [show (name ++ ':' :: c :: cs) ++ path = name ++ ':' :: c :: (cs ++ path) by simp, key]
    show httpSends _ = none
    unfold httpSends; simp
  · unfold uaaSends
    rw [key]
    show httpSends _ = none
    unfold httpSends; simp
  · unfold tokenSends
    rw [key]
    show httpSends _ = none
    unfold httpSends; simp

example : SchemeText "localhost".toList ∧ ∃ c cs, "8083".toList = c :: cs ∧ ∀ d ∈ "8083".toList, digit d :=
  ⟨⟨⟨'l', "ocalhost".toList, rfl, by decide⟩, by decide⟩, ⟨_, _, rfl, by decide⟩⟩

/-- A slash at the end of CAPI's address is kept, so that the path of every listing begins with
two. -/
theorem C161_slash_false {t h : Str} (ht : t = "http".toList ∨ t = "https".toList) (hh : HostText h)
    (hplain : PlainAddr (t ++ "://".toList ++ h ++ "/".toList)) :
    capiSends (t ++ "://".toList ++ h ++ "/".toList) "/v3/apps".toList = some (t, h, "//v3/apps".toList) :=
  (C161_auth_partial ht hh (.inr ⟨[], rfl⟩) hplain).1 "v3/apps".toList

end LogCache
