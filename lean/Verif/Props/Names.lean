import Verif.Model.Names
import Verif.Props.Auth
import Verif.Props.Door
/-!
# Queries by the name of an app (C149)
-/
namespace LogCache
open Spec

/-- What the Cloud Controller reads from the parameter: the names, cut at their commas. -/
theorem namesParam_split (names : List Str) (hne : names ≠ []) :
    splitOn ',' (namesParam names) = names.flatMap (splitOn ',') := by
  induction names with
  | nil => exact absurd rfl hne
  | cons n ns ih =>
    cases ns with
    | nil => simp [namesParam]
    | cons m ms => rw [namesParam, splitOn_append, ih (by simp)]; rfl

theorem related_apps (k : Capi) (hup : k.up = true) (names : List Str) (token id : Str) (hid : id ∈ names)
    (hcomma : ',' ∉ id) :
    ∃ rel, k.related names token = some rel ∧
      ∀ y, y ∈ (rel id).getD [] ↔ ∃ app ∈ k.apps, k.sees token app = true ∧ app.name = id ∧ app.guid = y := by
  refine ⟨_, rfl, fun y => ?_⟩
  have hne : names ≠ [] := by rintro rfl; cases hid
  unfold Capi.listApps
  rw [if_pos hup, (C67_related names _ hne id).1]
  have hin : id ∈ splitOn ',' (namesParam names) := by
    rw [namesParam_split names hne]
    exact List.mem_flatMap.2 ⟨id, hid, by rw [splitOn_free hcomma]; exact List.mem_singleton_self _⟩
  simp only [List.mem_map, List.mem_filter, Bool.and_eq_true, List.contains_iff_mem, decide_eq_true_eq]
  constructor
  · rintro ⟨r, ⟨⟨h1, h2, h3⟩, h4⟩, h5⟩
    exact ⟨r, h1, h2, h4, h5⟩
  · rintro ⟨r, h1, h2, h3, h4⟩
    exact ⟨r, ⟨⟨h1, h2, by rw [h3]; exact hin⟩, h3⟩, h4⟩

/-- A query for a name without a comma is answered from the source of that name and from every
app of that name, as far as the user may read them, and from no other source, if the Cloud
Controller can be reached; ids contain no `|`. Missing: names with a comma, reads, and times at
which the Cloud Controller does not answer, for which the claim is false (below). -/
theorem C149_query_partial (k : Capi) (hup : k.up = true) (oauth : Str → Option UserCtx) (auth : UserCtx → Str → Bool)
    (order : List Str → List Str) (hord : ∀ l, (order l).Perm l) (parse : Str → Option PExpr)
    (token query : Str) (c : UserCtx) (e e' : PExpr) (hc : oauth token = some c) (hp : parse query = some e)
    (hcomma : ∀ id, QueryNames e id → ',' ∉ id) (hpipe : ∀ id, QueryNames e id → '|' ∉ id)
    (hguid : ∀ app ∈ k.apps, '|' ∉ app.guid)
    (h : queryHandler oauth (fun c _ => auth c) k.related order parse token query = .forward e') (y : Str) :
    QueryNames e' y ↔ (c.isAdmin = true ∨ auth c y = true) ∧
      (QueryNames e y ∨ ∃ app ∈ k.apps, k.sees token app = true ∧ app.guid = y ∧ QueryNames e app.name) := by
  have ht : token ≠ [] := by
    rintro rfl
    unfold queryHandler at h
    rw [if_pos rfl] at h
    cases h
  have hids : ∃ id, QueryNames e id := by
    unfold queryHandler at h
    rw [if_neg ht, hp] at h
    dsimp only at h
    by_cases h0 : order (extractSourceIds e) = []
    · rw [if_pos h0] at h; cases h
    · obtain ⟨x, xs, hx⟩ := List.exists_cons_of_ne_nil h0
      have : x ∈ extractSourceIds e := (hord _).mem_iff.1 (by rw [hx]; exact List.mem_cons_self ..)
      exact ⟨x, (C57_extract e x).1 this⟩
  have hrel : ∀ id, QueryNames e id → ∀ y,
      y ∈ (relatedIds (order (extractSourceIds e)) (k.listApps (namesParam (order (extractSourceIds e))) token) id).getD [] ↔
        ∃ app ∈ k.apps, k.sees token app = true ∧ app.name = id ∧ app.guid = y := by
    intro id hid y
    have hm : id ∈ order (extractSourceIds e) := (hord _).mem_iff.2 ((C57_extract e id).2 hid)
    obtain ⟨rel, hr, hy⟩ := related_apps k hup (order (extractSourceIds e)) token id hm (hcomma id hid)
    cases hr
    exact hy y
  have hx := (C62_exact oauth auth k.related order hord parse token query c e _ ht hc hp hids rfl (by
    rintro id z hid (rfl | hz) _
    · exact hpipe _ hid
    · obtain ⟨app, ha, _, _, rfl⟩ := (hrel id hid z).1 hz
      exact hguid app ha)).1 e' h y
  rw [hx]
  constructor
  · rintro ⟨id, hid, rfl | hz, hauth⟩
    · exact ⟨hauth, .inl hid⟩
    · obtain ⟨app, ha, hs, hn, hg⟩ := (hrel id hid y).1 hz
      exact ⟨hauth, .inr ⟨app, ha, hs, hg, by rw [hn]; exact hid⟩⟩
  · rintro ⟨hauth, hid | ⟨app, ha, hs, hg, hid⟩⟩
    · exact ⟨y, hid, .inl rfl, hauth⟩
    · exact ⟨app.name, hid, .inr ((hrel _ hid y).2 ⟨app, ha, hs, rfl, hg⟩), hauth⟩

/-- And the log cache reads them: if one of them cannot be read, the query fails. -/
theorem C149_read_from (k : Capi) (hup : k.up = true) (oauth : Str → Option UserCtx) (auth : UserCtx → Str → Bool)
    (order : List Str → List Str) (hord : ∀ l, (order l).Perm l) (parse : Str → Option PExpr)
    (token query : Str) (c : UserCtx) (e e' : PExpr) (hc : oauth token = some c) (hp : parse query = some e)
    (hcomma : ∀ id, QueryNames e id → ',' ∉ id) (hpipe : ∀ id, QueryNames e id → '|' ∉ id)
    (hguid : ∀ app ∈ k.apps, '|' ∉ app.guid)
    (h : queryHandler oauth (fun c _ => auth c) k.related order parse token query = .forward e')
    {app : Resource} (ha : app ∈ k.apps) (hs : k.sees token app = true) (hn : QueryNames e app.name)
    (hauth : c.isAdmin = true ∨ auth c app.guid = true)
    (interval start stop : Int) (read : ReadRequest → Option (List Envelope)) (ord : List Matcher → List Str)
    (ho : ValidOrder ord) (hfail : ∀ req, req.sourceId = app.guid → read req = none) :
    none ∈ queryInputs interval start stop read ord e' :=
  C57_reads_all interval start stop read ord ho e' app.guid
    ((C57_extract e' app.guid).2 ((C149_query_partial k hup oauth auth order hord parse token query c e e' hc hp hcomma
      hpipe hguid h app.guid).2 ⟨hauth, .inr ⟨app, ha, hs, rfl, hn⟩⟩)) hfail

/-- Two apps of the name `shop` and one of another name. -/
def exCapi (up : Bool) : Capi :=
  { up := up, sees := fun _ _ => true
    apps := [⟨"a".toList, "shop".toList⟩, ⟨"v".toList, "shop".toList⟩, ⟨"w".toList, "stock".toList⟩] }

example : ∃ e', queryHandler exOauth exAuth (exCapi true).related id exParse "t".toList [] = .forward e' ∧
    QueryNames e' "a".toList :=
  ⟨_, rfl, by rw [← C57_extract]; decide +kernel⟩

/-- A query for the name of an app that contains a comma is forwarded, and does not read the
app. -/
theorem C149_comma_false : ∃ (k : Capi) (parse : Str → Option PExpr) (e e' : PExpr) (app : Resource),
    k.up = true ∧ app ∈ k.apps ∧ (∀ t a, k.sees t a = true) ∧ parse [] = some e ∧ QueryNames e app.name ∧
    queryHandler (fun _ => some ⟨true, [], 0⟩) (fun _ _ _ => true) k.related id parse "t".toList [] = .forward e' ∧
    ¬ QueryNames e' app.guid := by
  refine ⟨⟨true, [⟨"a".toList, "x,y".toList⟩], fun _ _ => true⟩,
    fun _ => some (.vector [⟨.equal, sourceIdLabel, "x,y".toList⟩]), _, _, ⟨"a".toList, "x,y".toList⟩, rfl,
    List.mem_singleton_self _, fun _ _ => rfl, rfl, ?_, rfl, ?_⟩
  · rw [← C57_extract]; decide +kernel
  · rw [← C57_extract]; decide +kernel

/-- While the Cloud Controller cannot be reached, an admin's query for the name of apps is
answered without an error and without their data. -/
theorem C149_outage_false (k : Capi) (hdown : k.up = false) (oauth : Str → Option UserCtx)
    (auth : UserCtx → Str → Bool) (order : List Str → List Str) (hord : ∀ l, (order l).Perm l)
    (parse : Str → Option PExpr) (token query : Str) (c : UserCtx) (e : PExpr) (ht : token ≠ [])
    (hc : oauth token = some c) (hadmin : c.isAdmin = true) (hp : parse query = some e)
    (hids : ∃ id, QueryNames e id) (hpipe : ∀ id, QueryNames e id → '|' ∉ id) :
    ∃ e', queryHandler oauth (fun c _ => auth c) k.related order parse token query = .forward e' ∧
      ∀ y, QueryNames e' y ↔ QueryNames e y := by
  have hl : ∀ id, (relatedIds (order (extractSourceIds e)) (k.listApps (namesParam (order (extractSourceIds e))) token) id).getD [] = [] := by
    intro id
    unfold Capi.listApps relatedIds
    rw [hdown]
    split <;> rfl
  have hx := C62_exact oauth auth k.related order hord parse token query c e _ ht hc hp hids rfl (by
    rintro id z hid (rfl | hz) _
    · exact hpipe _ hid
    · rw [hl id] at hz; cases hz)
  rcases hx.2 with ⟨⟨e', he'⟩, -⟩ | ⟨_, hna, _⟩
  · refine ⟨e', he', fun y => ?_⟩
    rw [hx.1 e' he' y]
    constructor
    · rintro ⟨id, hid, rfl | hz, _⟩
      · exact hid
      · rw [hl id] at hz; cases hz
    · exact fun hy => ⟨y, hy, .inl rfl, .inl hadmin⟩
  · rw [hadmin] at hna; cases hna

example : queryHandler (fun _ => some ⟨true, [], 0⟩) (fun _ _ _ => false) (exCapi false).related id exParse "t".toList [] =
    .forward (.vector [⟨.equal, "__name__".toList, "m".toList⟩, ⟨.equal, sourceIdLabel, "shop".toList⟩]) := rfl

/-- Reads do not know names of apps: a read by a name is one of the source with that id, whatever
apps there are. -/
theorem C149_read_false (k : Capi) (methodOk : Str → Bool) (oauth : Str → Option UserCtx) (auth : Str → Str → Bool)
    (order : List Str → List Str) (parse : Str → Option PExpr) (print : PExpr → Str) (r : WebReq) (name : Str)
    (req : ReadRequest) (hp : r.path = "/api/v1/read/".toList ++ name) (hid : CleanId name) (hn : '\n' ∉ name)
    (hcol : ':' ∉ name) (hm : methodOk r.method = true) (hmay : MayRead oauth auth r.authorization name)
    (h : door false methodOk oauth auth k.related order parse print r = some (.read req)) : req.sourceId = name := by
  rw [C75_served_partial methodOk oauth auth k.related order parse print r name hp hid hn hcol hm hmay] at h
  cases hg : gatewayRead name r.params with
  | none => rw [hg] at h; cases h
  | some q =>
    rw [hg] at h
    cases h
    unfold gatewayRead at hg
    split at hg
    · cases hg; rfl
    · cases hg

end LogCache
