import Verif.Props.Semver
import Verif.Props.ProxyMeta

/-! # Asking for meta information with the client library (C51, C142, C150) -/

namespace LogCache
open Spec

/-- Meta over HTTP asks where Read asks: for the version first, then under `/v1` from servers
before 2.0.0 and from those that do not know the question, under `/api/v1` from all others, and
not at all when the question fails; the answer is that of the server. -/
theorem C51_meta (parse : Str → Option Semver) (info ans : HttpAns Str) :
    ∃ asks, (httpMeta parse info ans).1 = { path := "/api/v1/info".toList } :: asks ∧
      (∀ s v, info = .resp 200 (some s) → parse s = some v →
        asks = [{ path := if v.major < 2 ∨ v = ⟨2, 0, 0, true⟩ then "/v1/meta".toList else "/api/v1/meta".toList }]) ∧
      (∀ b, info = .resp 404 b → asks = [{ path := "/v1/meta".toList }]) ∧
      (asks ≠ [] → (∃ s v, info = .resp 200 (some s) ∧ parse s = some v) ∨ ∃ b, info = .resp 404 b) ∧
      (∀ m, (httpMeta parse info ans).2 = some m ↔
        asks ≠ [] ∧ ∃ body, ans = .resp 200 (some body) ∧ clientMetaBody body = some m) := by
  obtain ⟨reads, e1, e2, e3, e4, -⟩ := C51_path parse info .failed [] 0 []
  unfold httpMeta
  cases hb : baseApiPath parse info with
  | none =>
    rw [httpRead_none .failed [] 0 [] hb] at e1
    have hr : reads = [] := by injection e1 with _ e1; exact e1.symm
    subst hr
    refine ⟨[], rfl, fun s v h1 h2 => ?_, fun b h => ?_, fun h => absurd rfl h, fun m => ?_⟩
    · have := e2 s v h1 h2; cases this
    · have := e3 b h; cases this
    · exact ⟨fun h => (nomatch h), fun h => absurd rfl h.1⟩
  | some base =>
    rw [httpRead_some .failed [] 0 [] hb] at e1
    injection e1 with _ e1
    subst e1
    refine ⟨_, rfl, fun s v h1 h2 => ?_, fun b h => ?_, fun _ => e4 (by simp), fun m => ?_⟩
    · have := e2 s v h1 h2
      injection this with this _
      injection this with this _
      have hp : ∀ x : Str, base ++ "/read/".toList ++ [] = x ++ "/read/".toList ++ [] → base = x := fun x h =>
        List.append_cancel_right (List.append_cancel_right h)
      split at this
      · rw [hp "/v1".toList this, if_pos (by assumption)]; rfl
      · rw [hp "/api/v1".toList this, if_neg (by assumption)]; rfl
    · have := e3 b h
      injection this with this _
      injection this with this _
      have hp : ∀ x : Str, base ++ "/read/".toList ++ [] = x ++ "/read/".toList ++ [] → base = x := fun x h =>
        List.append_cancel_right (List.append_cancel_right h)
      rw [hp "/v1".toList this]; rfl
    · cases ans with
      | failed => exact ⟨fun h => (nomatch h), fun ⟨_, _, h, _⟩ => nomatch h⟩
      | resp status body =>
        dsimp only
        split
        · rename_i hs
          refine ⟨fun h => (nomatch h), fun ⟨_, b, h, _⟩ => ?_⟩
          injection h with h _
          exact absurd h hs
        · rename_i hs
          have hs : status = 200 := Decidable.not_not.1 hs
          subst hs
          cases body with
          | none => exact ⟨fun h => (nomatch h), fun ⟨_, _, h, _⟩ => nomatch h⟩
          | some t =>
            refine ⟨fun h => ⟨by simp, t, rfl, h⟩, fun ⟨_, b, h, hb⟩ => ?_⟩
            injection h with _ h
            injection h with h
            subst h
            exact hb

/-- From a gateway whose version is a semantic version, Meta goes to the path of that version. -/
theorem C142_meta {text : Str} {v : Semver} (h : IsVersion text v) (uptime : Int) (ans : HttpAns Str) :
    (httpMeta semverParse (infoAns text uptime "version") ans).1 =
      [{ path := "/api/v1/info".toList },
       { path := if v.major < 2 ∨ v = ⟨2, 0, 0, true⟩ then "/v1/meta".toList else "/api/v1/meta".toList }] := by
  have hr := info_read text uptime (version_plain h) []
  rw [List.append_nil] at hr
  have h1 : infoAns text uptime "version" = .resp 200 (some text) := by
    unfold infoAns decodeField; rw [hr]; rfl
  obtain ⟨asks, e1, e2, -⟩ := C51_meta semverParse (infoAns text uptime "version") ans
  rw [e1, e2 text v h1 ((semverParse_iff _ _).2 h)]

/-- An answer of the proxy as the client library gets it: a status without a body to read, or 200
and the body. -/
def metaAns : Nat ⊕ Str → HttpAns Str
  | .inl status => .resp status none
  | .inr body => .resp 200 (some body)

/-- A user who calls Meta of the client library through the proxy, with a log cache of version
2.0.0 or later behind it, gets what the log cache knows of the sources they may read, and of no
others; an admin gets all of it. -/
theorem C150_client {text : Str} {v : Semver} (hver : IsVersion text v) (h2 : ¬ (v.major < 2 ∨ v = ⟨2, 0, 0, true⟩))
    (uptime : Int) (oauth : Str → Option UserCtx) (available : Str → List Str) (m : List (Str × WireMeta)) (tok : Str)
    (c : UserCtx) (ht : tok ≠ []) (hc : oauth tok = some c) (hm : (m.map Prod.fst).Nodup)
    (h : ∀ p ∈ m, FitsInt64 p.2.count ∧ FitsInt64 p.2.expired ∧ FitsInt64 p.2.oldest ∧ FitsInt64 p.2.newest) :
    let call := httpMeta semverParse (infoAns text uptime "version") (metaAns (proxyMeta oauth available (some m) tok))
    call.1 = [{ path := "/api/v1/info".toList }, { path := "/api/v1/meta".toList }] ∧
    ∃ m', call.2 = some m' ∧
      ∀ id, m'.lookup id = if c.isAdmin = true ∨ id ∈ available tok then m.lookup id else none := by
  obtain ⟨body, m', h1, h3, h4⟩ := C150_user oauth available m tok c ht hc hm h
  rw [h1]
  have hp := C142_meta hver uptime (metaAns (.inr body))
  rw [if_neg h2] at hp
  obtain ⟨asks, e1, -, -, -, e5⟩ := C51_meta semverParse (infoAns text uptime "version") (metaAns (.inr body))
  rw [e1] at hp
  injection hp with _ hp
  refine ⟨by rw [e1, hp], m', (e5 m').2 ⟨by rw [hp]; simp, body, rfl, h3⟩, h4⟩

/-- A user whose token the Oauth2 server does not know gets an error, and so does everyone if the
log cache fails. -/
theorem C150_client_refused (parse : Str → Option Semver) (info : HttpAns Str) (oauth : Str → Option UserCtx)
    (available : Str → List Str) (md : Option (List (Str × WireMeta))) (tok : Str)
    (h : tok = [] ∨ oauth tok = none ∨ md = none) :
    (httpMeta parse info (metaAns (proxyMeta oauth available md tok))).2 = none := by
  have hs : ∃ status, proxyMeta oauth available md tok = .inl status := by
    obtain ⟨r1, r2⟩ := C150_refused oauth available md tok
    by_cases ht : tok = [] ∨ oauth tok = none
    · exact ⟨_, r1 ht⟩
    · have h1 : tok ≠ [] := fun e => ht (.inl e)
      have h2 : oauth tok ≠ none := fun e => ht (.inr e)
      exact ⟨_, r2 h1 (Option.isSome_iff_ne_none.2 h2) (by
        rcases h with h | h | h
        · exact absurd h h1
        · exact absurd h h2
        · exact h)⟩
  obtain ⟨status, hs⟩ := hs
  rw [hs]
  obtain ⟨asks, -, -, -, -, e5⟩ := C51_meta parse info (metaAns (.inl status))
  cases hx : (httpMeta parse info (metaAns (.inl status))).2 with
  | none => rfl
  | some m =>
    obtain ⟨-, b, hb, -⟩ := (e5 m).1 hx
    cases hb

/-- Two sources, one of which the user may read. -/
example : let oauth : Str → Option UserCtx := fun t => if t = "tok".toList then some ⟨false, t, 0⟩ else none
    let m : List (Str × WireMeta) := [("a".toList, ⟨2, 0, 1, 5⟩), ("b".toList, ⟨1, 7, 3, 3⟩)]
    (∃ c, oauth "tok".toList = some c) ∧ (m.map Prod.fst).Nodup ∧ IsVersion "2.1.0".toList ⟨2, 1, 0, false⟩ :=
  ⟨⟨_, rfl⟩, by decide, (semverParse_iff _ _).1 (by decide +kernel)⟩

end LogCache
