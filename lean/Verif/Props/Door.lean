import Verif.Proof.Door
import Verif.Props.Auth
/-! # Properties of the way of a request through proxy and gateway -/
namespace LogCache
open Spec

/-! ## C73: the access log -/

/-- Every request is handed on unchanged and in order, whether its log entry could be
written or not; the log grows by one entry for each request whose write succeeded, in
order. -/
theorem C73_all_served (host port log : Str) (rs : List (Int × Bool × WebReq)) :
    (accessServeAll host port log rs).2 = rs.map (fun x => x.2.2) ∧
    (accessServeAll host port log rs).1 = log ++ (rs.filter (fun x => x.2.1)).flatMap
      (fun x => accessLine (logFields x.1 host port x.2.2) ++ ['\n']) := by
  induction rs generalizing log with
  | nil => exact ⟨rfl, by simp [accessServeAll]⟩
  | cons x rs ih =>
    obtain ⟨now, ok, r⟩ := x
    obtain ⟨h1, h2⟩ := ih (accessServe host port log now ok r).1
    refine ⟨congrArg (r :: ·) h1, ?_⟩
    show (accessServeAll host port (accessServe host port log now ok r).1 rs).1 = _
    rw [h2]
    cases ok with
    | true => simp [accessServe]
    | false => simp [accessServe]

/-- When no text a client sends contains a line feed, each entry is one line: the log
consists of the entries as lines. Missing: line feeds, with which the claim is false
(below). -/
theorem C73_lines_partial (host port : Str) (hh : '\n' ∉ host) (hp : '\n' ∉ port)
    (rs : List (Int × Bool × WebReq)) (hf : ∀ x ∈ rs, FreeOf '\n' x.2.2) :
    HasLines (accessServeAll host port [] rs).1
      ((rs.filter (fun x => x.2.1)).map fun x => accessLine (logFields x.1 host port x.2.2)) := by
  constructor
  · rw [(C73_all_served host port [] rs).2, List.nil_append, List.flatMap_map]
  · intro l hl
    obtain ⟨x, hx, rfl⟩ := List.mem_map.1 hl
    have hfree := hf x (List.mem_filter.1 hx).1
    obtain ⟨h1, h2, h3, h4, h5, h6⟩ := hfree
    intro hm
    have hri := remoteInfo_chars x.2.2 '\n' (by decide)
    rcases mem_accessLine hm with h | ⟨s, hs, hx⟩
    · exact absurd h (by decide)
    · refine escText_free (c := '\n') (by decide) (by decide) ?_ hx
      simp only [fieldTexts, logFields, List.mem_cons, List.not_mem_nil, or_false] at hs
      rcases hs with rfl | rfl | rfl | rfl | rfl | rfl | rfl
      · exact h4
      · unfold loggedPath
        split
        · exact h2
        · intro h
          rcases List.mem_append.1 h with h | h
          · exact h2 h
          · rcases List.mem_cons.1 h with h | h
            · exact absurd h (by decide)
            · exact h3 h
      · exact h1
      · intro h
        rcases hri.1 h with h | h
        · exact h5 h
        · exact h6 h
      · intro h
        rcases hri.2 h with h | h
        · exact h5 h
        · exact h6 h
      · exact hh
      · exact hp

/-- A request. -/
def exWeb : WebReq where
  method := "GET".toList
  path := "/api/v1/read/a".toList
  rawQuery := "limit=1".toList
  params := [("limit".toList, ["1".toList])]
  authorization := "bearer t".toList
  requestId := "r-1".toList
  forwardedFor := "10.0.0.1, 10.0.0.2".toList
  remoteAddr := "10.0.0.3:80".toList

example : FreeOf '\n' exWeb := by unfold FreeOf; decide

/-- A path may contain a line feed (`%0A`): a single request can put any harmless entry
of a request that never happened into the log, as a line of its own. -/
theorem C73_forged_false (f : LogFields)
    (hf : ∀ s ∈ fieldTexts f, ∀ c ∈ s, c ∉ "\"&'+<>".toList ∧ c.val ≠ 0) (host port : Str) (now : Int) :
    ∃ r pre post, r.path.head? = some '/' ∧
      (accessServe host port [] now true r).1 = pre ++ '\n' :: (accessLine f ++ '\n' :: post) := by
  have hsame : ∀ s : Str, (∀ c ∈ s, c ∉ "\"&'+<>".toList ∧ c.val ≠ 0) → escText s = s := fun s => escText_same
  have hline : escText (accessLine f) = accessLine f := by
    refine hsame _ fun c hc => ?_
    rcases mem_accessLine hc with h | ⟨s, hs, hx⟩
    · exact plainChar_same h
    · rw [hsame s (hf s hs)] at hx
      exact hf s hs c hx
  generalize accessLine f = line at hline
  have hp : escText ('/' :: '\n' :: (line ++ ['\n'])) = '/' :: '\n' :: (line ++ ['\n']) := by
    show escChar '/' ++ (escChar '\n' ++ escText (line ++ ['\n'])) = _
    have : escText (line ++ ['\n']) = escText line ++ escText ['\n'] := List.flatMap_append
    rw [this, hline]; rfl
  have hpath : (logFields now host port { method := [], path := '/' :: '\n' :: (line ++ ['\n']) }).path =
    '/' :: '\n' :: (line ++ ['\n']) := rfl
  obtain ⟨pre, post, hx⟩ := accessLine_path (logFields now host port
    { method := [], path := '/' :: '\n' :: (line ++ ['\n']) })
  rw [hpath, hp] at hx
  refine ⟨{ method := [], path := '/' :: '\n' :: (line ++ ['\n']) }, pre ++ ['/'], post ++ ['\n'], rfl, ?_⟩
  unfold accessServe
  rw [if_pos rfl, List.nil_append]
  rw [hx]
  simp only [List.append_assoc, List.cons_append, List.nil_append]

example : let f : LogFields := ⟨1700000000000, [], "/api/v1/read/victim".toList, "GET".toList, "10.0.0.9".toList,
      "443".toList, "10.0.0.1".toList, "8083".toList⟩
    ∀ s ∈ fieldTexts f, ∀ c ∈ s, c ∉ "\"&'+<>".toList ∧ c.val ≠ 0 := by
  decide

/-- The entry of a request whose texts contain no space and no bar has eight parts, the
last of which names the time, the request and both ends of the connection. -/
theorem C73_fields (f : LogFields) (hf : ∀ s ∈ fieldTexts f, '|' ∉ s ∧ ' ' ∉ s) :
    ∃ what ext, splitOn '|' (accessLine f) =
        ["CEF:0".toList, "cloud_foundry".toList, "log_cache".toList, "1.0".toList, what, what, "0".toList, ext] ∧
      splitOn ' ' what = [escText f.method, escText f.path] ∧
      splitOn ' ' ext =
        ["rt=".toList ++ formatInt f.millis, "cs1Label=userAuthenticationMechanism".toList,
         "cs1=oauth-access-token".toList, "cs2Label=vcapRequestId".toList, "cs2=".toList ++ escText f.requestId,
         "request=".toList ++ escText f.path, "requestMethod=".toList ++ escText f.method,
         "src=".toList ++ escText f.srcHost, "spt=".toList ++ escText f.srcPort,
         "dst=".toList ++ escText f.dstHost, "dpt=".toList ++ escText f.dstPort] := by
  have hb : ∀ s ∈ fieldTexts f, '|' ∉ escText s := fun s hs =>
    escText_free (by decide) (by decide) (hf s hs).1
  have hs : ∀ s ∈ fieldTexts f, ' ' ∉ escText s := fun s hs =>
    escText_free (by decide) (by decide) (hf s hs).2
  have mid : ∀ c : Char, c ∉ "-0123456789".toList → c ∉ formatInt f.millis := fun c hc hm => hc (formatInt_chars _ c hm)
  have app : ∀ {c : Char} {a b : Str}, c ∉ a → c ∉ b → c ∉ a ++ b := fun ha hb hm =>
    (List.mem_append.1 hm).elim ha hb
  have ext : ∀ c : Char, (∀ s ∈ fieldTexts f, c ∉ escText s) → c ∉ formatInt f.millis →
      (c = '|' ∨ c = ' ') → ∀ w ∈ extensions f, c ∉ w := by
    intro c h1 h2 hc w hw
    simp only [extensions, List.mem_cons, List.not_mem_nil, or_false] at hw
    have l : ∀ s : Str, s.all (fun x => decide (x ≠ '|' ∧ x ≠ ' ')) = true → c ∉ s := by
      intro s hs hm
      have := of_decide_eq_true (List.all_eq_true.1 hs c hm)
      exact hc.elim this.1 this.2
    have m : ∀ s, s ∈ fieldTexts f → c ∉ escText s := h1
    rcases hw with rfl | rfl | rfl | rfl | rfl | rfl | rfl | rfl | rfl | rfl | rfl
    · exact app (l _ (by decide)) h2
    · exact l _ (by decide)
    · exact l _ (by decide)
    · exact l _ (by decide)
    · exact app (l _ (by decide)) (m _ (by simp [fieldTexts]))
    · exact app (l _ (by decide)) (m _ (by simp [fieldTexts]))
    · exact app (l _ (by decide)) (m _ (by simp [fieldTexts]))
    · exact app (l _ (by decide)) (m _ (by simp [fieldTexts]))
    · exact app (l _ (by decide)) (m _ (by simp [fieldTexts]))
    · exact app (l _ (by decide)) (m _ (by simp [fieldTexts]))
    · exact app (l _ (by decide)) (m _ (by simp [fieldTexts]))
  have hM : f.method ∈ fieldTexts f := by simp [fieldTexts]
  have hP : f.path ∈ fieldTexts f := by simp [fieldTexts]
  have what : '|' ∉ escText f.method ++ ' ' :: escText f.path := by
    intro hm
    rcases List.mem_append.1 hm with h | h
    · exact hb _ hM h
    · rcases List.mem_cons.1 h with h | h
      · exact absurd h (by decide)
      · exact hb _ hP h
  refine ⟨escText f.method ++ ' ' :: escText f.path, joinBy ' ' (extensions f), ?_, ?_, ?_⟩
  · rw [accessLine_parts, splitOn_joinBy _ (by simp [lineParts])]
    · rfl
    · intro w hw
      simp only [lineParts, List.mem_cons, List.not_mem_nil, or_false] at hw
      rcases hw with rfl | rfl | rfl | rfl | rfl | rfl | rfl | rfl
      · decide
      · decide
      · decide
      · decide
      · exact what
      · exact what
      · decide
      · intro hm
        rcases mem_joinBy hm with h | ⟨w, hw, hx⟩
        · exact absurd h (by decide)
        · exact ext '|' hb (mid _ (by decide)) (.inl rfl) w hw hx
  · rw [splitOn_append, splitOn_free (hs _ hM), splitOn_free (hs _ hP)]; rfl
  · exact splitOn_joinBy _ (by simp [extensions]) (ext ' ' hs (mid _ (by decide)) (.inr rfl))

example : let f : LogFields := ⟨5, "r".toList, "/api/v1/read/a?x=<1>".toList, "GET".toList, "10.0.0.9".toList,
    "443".toList, "10.0.0.1".toList, "8083".toList⟩
    ∀ s ∈ fieldTexts f, '|' ∉ s ∧ ' ' ∉ s := by decide

/-- The escaping of the values loses nothing but NUL characters, and leaves nothing a
browser would take for markup. -/
theorem C73_escaping (s : Str) :
    ((∀ c ∈ s, c.val ≠ 0) → htmlDecode (escText s) = s) ∧
    ∀ c ∈ "\"'+<>".toList, c ∉ escText s :=
  ⟨decode_escape s, escText_no_markup s⟩

/-- The entry names the source of the request: the first address of X-Forwarded-For if
there is one, otherwise the other end of the connection; with its port if it is given,
IPv6 addresses only in brackets. -/
theorem C73_source (r : WebReq) (h p rest : Str) (hp : Plain p) :
    (r.forwardedFor = [] → Plain h → r.remoteAddr = h ++ ':' :: p → remoteInfo r = (h, p)) ∧
    (r.forwardedFor = [] → '[' ∉ h → ']' ∉ h → r.remoteAddr = '[' :: h ++ ']' :: ':' :: p → remoteInfo r = (h, p)) ∧
    (h ≠ [] → Plain h → r.forwardedFor = h ∨ r.forwardedFor = h ++ ',' :: rest → remoteInfo r = (h, [])) ∧
    (Plain h → r.forwardedFor = h ++ ':' :: p ∨ r.forwardedFor = h ++ ':' :: p ++ ',' :: rest →
      remoteInfo r = (h, p)) := by
  have hnil : Plain [] := ⟨List.not_mem_nil, List.not_mem_nil, List.not_mem_nil, List.not_mem_nil⟩
  refine ⟨fun h0 hh hr => ?_, fun h0 h1 h2 hr => ?_, fun hne hh hr => ?_, fun hh hr => ?_⟩
  · exact remoteInfo_of_addr (addr := h ++ ':' :: p) (.inr ⟨h0, hr⟩) (by simp) (splitHostPort_plain hh hp)
  · exact remoteInfo_of_addr (addr := '[' :: h ++ ']' :: ':' :: p) (.inr ⟨h0, hr⟩) (by simp)
      (splitHostPort_bracket h1 h2 hp)
  · exact remoteInfo_of_host (.inl ⟨hne, hh.2.2.2, hr.imp id fun e => ⟨rest, e⟩⟩) hh.1 (splitHostPort_plain hh hnil)
  · refine remoteInfo_of_addr (addr := h ++ ':' :: p) (.inl ⟨by simp, ?_, hr.imp id fun e => ⟨rest, e⟩⟩) (by simp)
      (splitHostPort_plain hh hp)
    intro hm
    rcases List.mem_append.1 hm with hm | hm
    · exact hh.2.2.2 hm
    · rcases List.mem_cons.1 hm with hm | hm
      · exact absurd hm (by decide)
      · exact hp.2.2.2 hm

example : Plain "10.0.0.1".toList ∧ Plain "443".toList := by unfold Plain; decide

/-- An IPv6 address as X-Forwarded-For usually carries it, without brackets, is not
logged at all: nor is anything else with two colons. -/
theorem C73_ipv6_false (r : WebReq) (a b c rest : Str) (hc : ',' ∉ a ++ ':' :: (b ++ ':' :: c))
    (hb : '[' ∉ a ++ ':' :: (b ++ ':' :: c))
    (h : r.forwardedFor = a ++ ':' :: (b ++ ':' :: c) ∨
      r.forwardedFor = a ++ ':' :: (b ++ ':' :: c) ++ ',' :: rest) : remoteInfo r = ([], []) := by
  rw [remoteInfo_eq, remoteAddrOf_eq (.inl ⟨by simp, hc, h.imp id fun e => ⟨rest, e⟩⟩), if_pos (by simp),
    splitHostPort_colons hb]
  rfl

example : "2001:db8::1".toList = "2001".toList ++ ':' :: ("db8".toList ++ ':' :: ":1".toList) ∧
    ',' ∉ "2001:db8::1".toList ∧ '[' ∉ "2001:db8::1".toList := by decide

/-- The time of an entry is that of the request in milliseconds. -/
theorem C73_time (now : Int) (h0 : 0 ≤ now) (host port : Str) (r : WebReq) :
    (logFields now host port r).millis * 1000000 ≤ now ∧ now < ((logFields now host port r).millis + 1) * 1000000 := by
  show now.tdiv 1000000 * 1000000 ≤ now ∧ now < (now.tdiv 1000000 + 1) * 1000000
  rw [Int.tdiv_eq_ediv_of_nonneg h0]
  omega

/-! ## C75: the front door -/

/-- Whatever the proxy's parts answer, a Read that reaches log-cache is of a source the
user may read: up to a colon at the end of its id, and if the gateway library knows the
parameter only by the name the proxy's filter excludes (`alias = false`). -/
theorem C75_read (methodOk : Str → Bool) (oauth : Str → Option UserCtx) (auth : Str → Str → Bool)
    (related : List Str → Str → Option Expansions) (order : List Str → List Str)
    (parse : Str → Option PExpr) (print : PExpr → Str) (r : WebReq) (req : ReadRequest)
    (h : door false methodOk oauth auth related order parse print r = some (.read req)) :
    MayRead oauth auth r.authorization req.sourceId ∨
      MayRead oauth auth r.authorization (req.sourceId ++ [':']) := by
  unfold door at h
  cases hr : proxyRoute r.path with
  | read id =>
    rw [hr] at h
    dsimp only at h
    cases hh : readHandler oauth auth r.authorization id with
    | status n => rw [hh] at h; cases h
    | forward x =>
      rw [hh] at h
      dsimp only at h
      have hf : readHandler oauth auth r.authorization id = .forward id := by
        rcases (C61_read oauth auth r.authorization id).2 with h | h
        · exact h
        · rw [h] at hh; cases hh
      have hm : MayRead oauth auth r.authorization id := (C61_read oauth auth r.authorization id).1.1 hf
      obtain ⟨id', hid, hg⟩ := gatewayCall_read (proxyRoute_read hr).1 h
      obtain ⟨req', hb, _, hs⟩ := gatewayReadCall_plain hg
      cases hb
      rw [hs]
      rcases hid with rfl | rfl
      · exact .inl hm
      · exact .inr hm
  | query =>
    rw [hr] at h
    dsimp only at h
    cases hh : queryHandler oauth (fun c _ id => auth id c.token) related order parse r.authorization
        ((r.params.first "query".toList).getD []) with
    | status n => rw [hh] at h; cases h
    | forward e =>
      rw [hh] at h
      dsimp only at h
      rcases gatewayCall_query (r := { r with params := r.params.set "query".toList (print e) })
        (proxyRoute_query hr) h with h | h <;> cases h
  | info =>
    rw [hr] at h
    dsimp only at h
    unfold gatewayCall at h
    rw [if_pos (proxyRoute_info hr)] at h
    cases h
  | metaRoute => rw [hr] at h; cases h
  | redirect to => rw [hr] at h; cases h
  | notFound => rw [hr] at h; cases h

/-- So when no id that ends in a colon is authorized for anyone, every Read that
reaches log-cache is of a source the user may read. Missing: ids that end in a colon
and gateway libraries that also know the JSON names of fields, for which the claim is
false (below). -/
theorem C75_read_partial (methodOk : Str → Bool) (oauth : Str → Option UserCtx) (auth : Str → Str → Bool)
    (hcolon : ∀ id tok, auth (id ++ [':']) tok = false)
    (related : List Str → Str → Option Expansions) (order : List Str → List Str)
    (parse : Str → Option PExpr) (print : PExpr → Str) (r : WebReq) (req : ReadRequest)
    (h : door false methodOk oauth auth related order parse print r = some (.read req)) :
    MayRead oauth auth r.authorization req.sourceId := by
  rcases C75_read methodOk oauth auth related order parse print r req h with h | ⟨ht, c, hc, h⟩
  · exact h
  · refine ⟨ht, c, hc, .inl ?_⟩
    rcases h with h | h
    · exact h
    · rw [hcolon] at h; cases h

/-- A user `t` without administrator rights. -/
def doorUser (t : Str) : Option UserCtx := if t = "t".toList then some ⟨false, t, 0⟩ else none

/-- The user may read `a:` and reads `a`. -/
theorem C75_colon_false : ∃ (auth : Str → Str → Bool) (r : WebReq) (req : ReadRequest),
    door false (fun _ => true) doorUser auth (fun _ _ => none) id (fun _ => none) (fun _ => []) r =
      some (.read req) ∧ ¬ MayRead doorUser auth r.authorization req.sourceId := by
  refine ⟨fun i _ => decide (i = "a:".toList),
    { method := "GET".toList, path := "/api/v1/read/a:".toList, authorization := "t".toList },
    { sourceId := "a".toList }, by decide, ?_⟩
  rintro ⟨_, c, hc, h⟩
  have : c = ⟨false, "t".toList, 0⟩ := by
    have h0 : doorUser "t".toList = some ⟨false, "t".toList, 0⟩ := by decide
    exact Option.some.inj (hc.symm.trans h0)
  subst this
  rcases h with h | h
  · cases h
  · exact absurd h (by decide)

/-- With a gateway library that also knows the JSON names of fields, a user who may
read `a` reads any source `v`, by naming it as the parameter `sourceId`. -/
theorem C75_alias_false (v : Str) (hv : v ≠ "a".toList) : ∃ (r : WebReq) (req : ReadRequest),
    door true (fun _ => true) doorUser (fun i _ => decide (i = "a".toList)) (fun _ _ => none) id
      (fun _ => none) (fun _ => []) r = some (.read req) ∧ req.sourceId = v ∧
    ¬ MayRead doorUser (fun i _ => decide (i = "a".toList)) r.authorization v := by
  refine ⟨{ method := "GET".toList, path := "/api/v1/read/a".toList, params := [("sourceId".toList, [v])],
            authorization := "t".toList }, { sourceId := v }, ?_, rfl, ?_⟩
  · unfold door
    rw [show proxyRoute "/api/v1/read/a".toList = .read "a".toList by decide]
    dsimp only
    rw [show readHandler doorUser (fun i _ => decide (i = "a".toList)) "t".toList "a".toList =
      .forward "a".toList by decide]
    dsimp only
    rw [gatewayCall_path (id := "a".toList) rfl rfl,
      show dropVerb ("api".toList :: "v1".toList :: "read".toList :: splitOn '/' "a".toList) =
        some ["api".toList, "v1".toList, "read".toList, "a".toList] by decide, Option.bind_some, gatewayMatch,
      if_pos ⟨rfl, rfl⟩, if_pos rfl]
    rfl
  · rintro ⟨_, c, hc, h⟩
    have : c = ⟨false, "t".toList, 0⟩ := by
      have h0 : doorUser "t".toList = some ⟨false, "t".toList, 0⟩ := by decide
      exact Option.some.inj (hc.symm.trans h0)
    subst this
    rcases h with h | h
    · cases h
    · exact absurd (of_decide_eq_true h) hv

/-- A query that reaches log-cache names, read by log-cache's own parser, only sources
the user may read, if a query that is printed and parsed again names no other sources. -/
theorem C75_query (alias : Bool) (methodOk : Str → Bool) (oauth : Str → Option UserCtx)
    (auth : Str → Str → Bool) (related : List Str → Str → Option Expansions)
    (order : List Str → List Str) (hord : ∀ l, (order l).Perm l)
    (parse : Str → Option PExpr) (print : PExpr → Str) 
    (hprint : ∀ e e', parse (print e) = some e' → ∀ id, QueryNames e' id → QueryNames e id)
    (hpipe : ∀ id tok, auth id tok = true → '|' ∉ id) (r : WebReq) (q : Str)
    (h : door alias methodOk oauth auth related order parse print r = some (.instant q) ∨
      door alias methodOk oauth auth related order parse print r = some (.range q))
    (e : PExpr) (he : parse q = some e) :
    ∀ id, QueryNames e id → MayRead oauth auth r.authorization id := by
  have key : ∀ b, (b = .instant q ∨ b = .range q) →
      door alias methodOk oauth auth related order parse print r = some b →
      ∀ id, QueryNames e id → MayRead oauth auth r.authorization id := by
    intro b hb h
    unfold door at h
    cases hr : proxyRoute r.path with
    | read id =>
      rw [hr] at h
      dsimp only at h
      cases hh : readHandler oauth auth r.authorization id with
      | status n => rw [hh] at h; cases h
      | forward x =>
        rw [hh] at h
        dsimp only at h
        obtain ⟨id', _, hg⟩ := gatewayCall_read (proxyRoute_read hr).1 h
        unfold gatewayReadCall at hg
        rw [Option.map_eq_some_iff] at hg
        obtain ⟨req, _, hq⟩ := hg
        rcases hb with rfl | rfl <;> cases hq
    | query =>
      rw [hr] at h
      dsimp only at h
      cases hh : queryHandler oauth (fun c _ id => auth id c.token) related order parse r.authorization
          ((r.params.first "query".toList).getD []) with
      | status n => rw [hh] at h; cases h
      | forward e' =>
        rw [hh] at h
        dsimp only at h
        have hq : q = print e' := by
          have hfirst : ((r.params.set "query".toList (print e')).first "query".toList).getD [] = print e' := by
            unfold Values.first Values.set
            rw [mapSet_lookup, if_pos rfl]; rfl
          rcases gatewayCall_query (r := { r with params := r.params.set "query".toList (print e') })
            (proxyRoute_query hr) h with h | h <;> rw [hfirst] at h <;> subst h <;>
            rcases hb with hb | hb <;> cases hb <;> rfl
        obtain ⟨ht, e0, c, rel, ex, _, _, hc, _⟩ := queryHandler_forward hh
        intro id hid
        replace hid := hprint e' e (hq ▸ he) id hid
        refine ⟨ht, c, hc, ?_⟩
        cases ha : c.isAdmin with
        | true => exact .inl rfl
        | false =>
          obtain ⟨_, hn⟩ := C62_names_authorized oauth (fun c _ id => auth id c.token) related order hord parse
            r.authorization _ e' c hc ha (fun _ x hx => hpipe x c.token hx) hh id hid
          exact .inr hn
    | info =>
      rw [hr] at h
      dsimp only at h
      unfold gatewayCall at h
      rw [if_pos (proxyRoute_info hr)] at h
      rcases hb with rfl | rfl <;> cases h
    | metaRoute => rw [hr] at h; cases h
    | redirect to => rw [hr] at h; cases h
    | notFound => rw [hr] at h; cases h
  rcases h with h | h
  · exact key _ (.inl rfl) h
  · exact key _ (.inr rfl) h

/-- For the example: the queries `m{source_id="…"}`, written as the source alone. -/
def doorParse (s : Str) : Option PExpr :=
  if s = [] then none else some (.vector [⟨.equal, nameLabel, "m".toList⟩, ⟨.equal, sourceIdLabel, s⟩])
/-- The printer of these queries. -/
def doorPrint : PExpr → Str
  | .vector [n, m] => if n = ⟨.equal, nameLabel, "m".toList⟩ ∧ m.type = .equal ∧ m.name = sourceIdLabel
    then m.value else []
  | _ => []
/-- A GET for a query. -/
def doorGet (query : Str) : WebReq where
  method := "GET".toList
  path := "/api/v1/query".toList
  params := [("query".toList, [query])]
  authorization := "t".toList

example (e e' : PExpr) (h : doorParse (doorPrint e) = some e') (id : Str) (hid : QueryNames e' id) :
    QueryNames e id := by
  suffices e = e' by rw [this]; exact hid
  unfold doorPrint at h
  split at h
  · split at h
    · next n m hc =>
      obtain ⟨rfl, h1, h2⟩ := hc
      unfold doorParse at h
      split at h
      · cases h
      · rw [← Option.some.inj h]
        cases m
        dsimp only at h1 h2
        rw [h1, h2]
    · rw [doorParse, if_pos rfl] at h; cases h
  · rw [doorParse, if_pos rfl] at h; cases h

-- A user who may read `a` gets an answer about `a`, but none about `v`.
example : door false (fun _ => true) doorUser (fun i _ => decide (i = "a".toList)) (fun _ _ => some fun _ => none) id
      doorParse doorPrint (doorGet "v".toList) = none ∧
    door false (fun _ => true) doorUser (fun i _ => decide (i = "a".toList)) (fun _ _ => some fun _ => none) id
      doorParse doorPrint (doorGet "a".toList) = some (.instant "a".toList) := by
  constructor <;> rfl

/-- Nobody gets log-cache's own Meta answer through the proxy, and without a token
nothing is done but telling the version. -/
theorem C75_closed (alias : Bool) (methodOk : Str → Bool) (oauth : Str → Option UserCtx)
    (auth : Str → Str → Bool) (related : List Str → Str → Option Expansions)
    (order : List Str → List Str) (parse : Str → Option PExpr) (print : PExpr → Str) (r : WebReq) :
    door alias methodOk oauth auth related order parse print r ≠ some .metaCall ∧
    (r.authorization = [] → ∀ b, door alias methodOk oauth auth related order parse print r = some b → b = .info) := by
  constructor
  · intro h
    unfold door at h
    cases hr : proxyRoute r.path with
    | read id =>
      rw [hr] at h
      dsimp only at h
      cases hh : readHandler oauth auth r.authorization id with
      | status n => rw [hh] at h; cases h
      | forward x =>
        rw [hh] at h
        dsimp only at h
        obtain ⟨id', _, hg⟩ := gatewayCall_read (proxyRoute_read hr).1 h
        unfold gatewayReadCall at hg
        rw [Option.map_eq_some_iff] at hg
        obtain ⟨req, _, hq⟩ := hg
        cases hq
    | query =>
      rw [hr] at h
      dsimp only at h
      cases hh : queryHandler oauth (fun c _ id => auth id c.token) related order parse r.authorization
          ((r.params.first "query".toList).getD []) with
      | status n => rw [hh] at h; cases h
      | forward e' =>
        rw [hh] at h
        dsimp only at h
        rcases gatewayCall_query (r := { r with params := r.params.set "query".toList (print e') })
          (proxyRoute_query hr) h with h | h <;> cases h
    | info =>
      rw [hr] at h
      dsimp only at h
      unfold gatewayCall at h
      rw [if_pos (proxyRoute_info hr)] at h
      cases h
    | metaRoute => rw [hr] at h; cases h
    | redirect to => rw [hr] at h; cases h
    | notFound => rw [hr] at h; cases h
  · intro ht b h
    unfold door at h
    cases hr : proxyRoute r.path with
    | read id =>
      rw [hr, ht] at h
      dsimp only at h
      unfold readHandler at h
      rw [if_pos rfl] at h
      cases h
    | query =>
      rw [hr, ht] at h
      dsimp only at h
      unfold queryHandler at h
      rw [if_pos rfl] at h
      cases h
    | info =>
      rw [hr] at h
      dsimp only at h
      unfold gatewayCall at h
      rw [if_pos (proxyRoute_info hr)] at h
      cases h
      rfl
    | metaRoute => rw [hr] at h; cases h
    | redirect to => rw [hr] at h; cases h
    | notFound => rw [hr] at h; cases h

/-- A user who may read a source whose id has no line feed, no colon and no segment a
router would rewrite gets it read, with the parameters of the request. Missing: the
other ids, for which the claim is false (below). -/
theorem C75_served_partial (methodOk : Str → Bool) (oauth : Str → Option UserCtx) (auth : Str → Str → Bool)
    (related : List Str → Str → Option Expansions) (order : List Str → List Str)
    (parse : Str → Option PExpr) (print : PExpr → Str) (r : WebReq) (id : Str)
    (hp : r.path = "/api/v1/read/".toList ++ id) (hid : CleanId id) (hn : '\n' ∉ id) (hc : ':' ∉ id)
    (hm : methodOk r.method = true) (hmay : MayRead oauth auth r.authorization id) :
    door false methodOk oauth auth related order parse print r = (gatewayRead id r.params).map .read := by
  unfold door
  have hroute : proxyRoute r.path = .read id := by rw [hp]; exact proxyRoute_clean hid hn
  rw [hroute]
  dsimp only
  rw [(C61_read oauth auth r.authorization id).1.2 hmay]
  dsimp only
  exact gatewayCall_served hp hc hm

example : CleanId "9d3c-41/app.1".toList ∧ '\n' ∉ "9d3c-41/app.1".toList ∧ ':' ∉ "9d3c-41/app.1".toList ∧
    MayRead doorUser (fun i _ => decide (i = "9d3c-41/app.1".toList)) "t".toList "9d3c-41/app.1".toList := by
  refine ⟨?_, by decide, by decide, by decide, ⟨false, "t".toList, 0⟩, by decide, .inr (by decide)⟩
  unfold CleanId; decide +kernel

/-- A source whose id has a colon with something behind it cannot be read through the
proxy, not even by administrators. -/
theorem C75_unreadable_false (methodOk : Str → Bool) (oauth : Str → Option UserCtx) (auth : Str → Str → Bool)
    (related : List Str → Str → Option Expansions) (order : List Str → List Str)
    (parse : Str → Option PExpr) (print : PExpr → Str) (r : WebReq) (a b : Str)
    (hb : '/' ∉ b) (hb' : ':' ∉ b) (hne : b ≠ []) (hp : r.path = "/api/v1/read/".toList ++ (a ++ ':' :: b)) :
    door false methodOk oauth auth related order parse print r = none := by
  unfold door
  cases hr : proxyRoute r.path with
  | read id =>
    dsimp only
    cases hh : readHandler oauth auth r.authorization id with
    | status n => rfl
    | forward x => exact gatewayCall_verb hp hb hb' hne
  | query =>
    rcases proxyRoute_query hr with h | h <;> rw [hp] at h <;> exact absurd h readPath_ne
  | info =>
    have h := proxyRoute_info hr
    rw [hp] at h
    exact absurd h readPath_ne
  | metaRoute => rfl
  | redirect to => rfl
  | notFound => rfl

/-- Nor can any source whose id is not clean: the routers would rewrite its path. -/
theorem C75_unclean_false (alias : Bool) (methodOk : Str → Bool) (oauth : Str → Option UserCtx)
    (auth : Str → Str → Bool) (related : List Str → Str → Option Expansions) (order : List Str → List Str)
    (parse : Str → Option PExpr) (print : PExpr → Str) (r : WebReq) (id : Str)
    (hp : r.path = "/api/v1/read/".toList ++ id) (hid : ¬ CleanId id) :
    door alias methodOk oauth auth related order parse print r = none := by
  unfold door
  have hroute : ∃ to, proxyRoute r.path = .redirect to := by
    rw [hp]
    unfold proxyRoute
    rw [if_pos (fun h => hid ((cleanPath_read id).1 h))]
    exact ⟨_, rfl⟩
  obtain ⟨to, hto⟩ := hroute
  rw [hto]

example : ¬ CleanId "a//b".toList ∧ ¬ CleanId "..".toList ∧ CleanId "a/b/".toList := by
  unfold CleanId; decide +kernel

/-- For instance, the proxy answers with a redirect to the path without the dots and empty segments, which is that of another source. -/
theorem C75_redirect_false :
    proxyRoute "/api/v1/read/a//b".toList = .redirect "/api/v1/read/a/b".toList ∧
    proxyRoute "/api/v1/read/a/../b".toList = .redirect "/api/v1/read/b".toList ∧
    proxyRoute "/api/v1/read/./a".toList = .redirect "/api/v1/read/a".toList ∧
    proxyRoute "/api/v1/read/..".toList = .redirect "/api/v1".toList ∧
    proxyRoute [] = .redirect "/".toList := by
  decide

/-- The gateway answers Meta on its own path only, and queries on theirs. -/
theorem C75_gateway_paths {alias : Bool} {mo : Str → Bool} {r : WebReq} {b : Backend}
    (h : gatewayCall alias mo r = some b) :
    (b = .metaCall → r.path = "/api/v1/meta".toList ∨ r.path = "/api/v1/meta:".toList) ∧
    (∀ q, b = .instant q → r.path = "/api/v1/query".toList ∨ r.path = "/api/v1/query:".toList) ∧
    (∀ q, b = .range q → r.path = "/api/v1/query_range".toList ∨ r.path = "/api/v1/query_range:".toList) := by
  have key : ∀ (p w : Str), dropVerb (splitOn '/' p) = some ["api".toList, "v1".toList, w] →
      p = "api/v1/".toList ++ w ∨ p = "api/v1/".toList ++ (w ++ [':']) := by
    intro p w hd
    have hj := joinBy_split '/' p
    unfold dropVerb at hd
    split at hd
    · cases hd
    · rename_i last hl
      split at hd
      · injection hd with hd
        left; rw [hd] at hj; rw [← hj]; rfl
      · rename_i front verb hc
        split at hd
        · cases hd
        · rename_i hn
          injection hd with hd
          have hv : verb = [] := Classical.byContradiction fun h => hn (.inr h)
          subst hv
          obtain ⟨h1, _⟩ := lastColon_some hc
          have hcat : splitOn '/' p = (splitOn '/' p).dropLast ++ [last] := by
            rcases List.eq_nil_or_concat (splitOn '/' p) with h0 | ⟨i, l, he⟩
            · rw [h0] at hl; cases hl
            · rw [he, List.concat_eq_append] at hl ⊢
              rw [List.getLast?_concat] at hl
              injection hl with hl
              rw [List.dropLast_concat, hl]
          have hpre : (splitOn '/' p).dropLast = ["api".toList, "v1".toList] ∧ front = w := by
            have e : ["api".toList, "v1".toList, w] = ["api".toList, "v1".toList] ++ [w] := rfl
            rw [e] at hd
            have := List.append_inj' hd rfl
            exact ⟨this.1, by simpa using this.2⟩
          right
          rw [hcat, hpre.1, h1, hpre.2] at hj
          rw [← hj]; rfl
  unfold gatewayCall at h
  split at h
  · injection h with h
    subst h
    exact ⟨nofun, nofun, nofun⟩
  · split at h
    · cases h
    · split at h
      · rename_i p hp
        obtain ⟨comps, h1, h2⟩ := Option.bind_eq_some_iff.1 h
        rw [hp]
        unfold gatewayMatch at h2
        split at h2
        · rename_i a a' c rest
          split at h2
          · rename_i hab
            obtain ⟨rfl, rfl⟩ := hab
            split at h2
            · unfold gatewayReadCall at h2
              obtain ⟨req, _, rfl⟩ := Option.map_eq_some_iff.1 h2
              exact ⟨nofun, nofun, nofun⟩
            · split at h2
              · cases h2
              · rename_i hrest
                have hrest : rest = [] := Classical.byContradiction hrest
                subst hrest
                have hk := key p c h1
                split at h2
                · rename_i hc
                  subst hc
                  injection h2 with h2
                  subst h2
                  refine ⟨fun _ => ?_, nofun, nofun⟩
                  rcases hk with hk | hk <;> rw [hk]
                  · left; rfl
                  · right; rfl
                · split at h2
                  · rename_i hc
                    subst hc
                    injection h2 with h2
                    subst h2
                    refine ⟨nofun, fun _ _ => ?_, nofun⟩
                    rcases hk with hk | hk <;> rw [hk]
                    · left; rfl
                    · right; rfl
                  · split at h2
                    · rename_i hc
                      subst hc
                      injection h2 with h2
                      subst h2
                      refine ⟨nofun, nofun, fun _ _ => ?_⟩
                      rcases hk with hk | hk <;> rw [hk]
                      · left; rfl
                      · right; rfl
                    · cases h2
          · cases h2
        · cases h2
      · cases h

example : gatewayCall false (fun _ => true) { method := "GET".toList, path := "/api/v1/meta".toList } = some .metaCall := by decide

end LogCache
