# Formal model of cloudfoundry/log-cache in Lean 4

The plan was written before the proofs and is kept current with them; the tables are
regenerated from `properties.jsonl`, `MANIFEST.json` and `#print axioms`.

## Layout

* `properties.jsonl`: the properties, in terms of the API.
* `lean/Verif/Model/*.lean`: the model, function by function, each definition
  with the `/repo` file and lines it models and the simplifications made.
* `lean/Verif/Spec/*.lean`: small specifications, and the state machines that compose
  model functions (cluster, walk runs, histories).
* `lean/Verif/Proof/*.lean`: helper lemmas.
* `lean/Verif/Props/*.lean`: the property theorems (`Cnn_...`), with `example`s
  showing that a concrete non-trivial case meets their hypotheses.
* `MANIFEST.json`: property -> theorems. `seeded/LOG.jsonl`: wrong programs tried.

## Method

* Go strings are lists of characters (`Str := List Char`).  Go `int64`
  timestamps are unbounded integers unless a property is about wrap-around
  (the scheduler's `uint64` arithmetic, syslog times and parameter parsing are modelled
  with their bounds).
* Go maps are association lists; where iteration order matters the theorem
  quantifies over it.
* A panic is an explicit outcome (`none`, or `.panic`), never a default value.
* Stateful components are step machines; concurrent ones interleave
  steps at the granularity of the locks and atomic operations in the code.
* External services (UAA, CAPI, gRPC peers, clocks, regular expressions,
  hash functions) are parameters, so a theorem holds for all their behaviours.
* If a property is false of the code, the negation is proved with a concrete
  witness (`..._false`), and the part that does hold is proved as `..._partial`.
* `decide` / `decide +kernel` is used for finite tables and for evaluating witnesses, not
  for universal claims.

## Plan per property

"Modelled" names the files under `lean/Verif/Model` (and `Spec` where the state machine lives there).

| id | property | modelled | proof | status |
|---|---|---|---|---|
| C01 | Per-source capacity is never exceeded | Store, Avl, Heap; Conc for schedules | invariant (size and key bounds) by induction over operations; the same over every schedule | proved |
| C02 | Reads return only stored envelopes that match the request | Store (`Get`, both tree traversals); Conc | induction over the tree, any shape; soundness transported to schedules by an invariant on the versions a read may see | proved |
| C03 | Ascending reads are complete: the oldest matching envelopes, oldest first | Store (`Get`) | equality with a list specification for distinct timestamps; `decide +kernel` witnesses against the general claim | partial |
| C04 | Descending reads are complete: the newest matching envelopes, newest first | Store (`Get`) | equality with a list specification for distinct timestamps; `decide +kernel` witnesses against the general claim | partial |
| C05 | A read never returns more than limit envelopes beyond a group of equal timestamps | Store (`Get`) | equality with a list specification for distinct timestamps; `decide +kernel` witnesses against the general claim | partial |
| C06 | A limited read never splits a group of equal timestamps | Store (`Get`) | equality with a list specification for distinct timestamps; `decide +kernel` witnesses against the general claim | partial |
| C07 | A Put never destroys another envelope except by the documented capacity eviction | Store (`Put`, insertOrSwap), Avl | AVL put/remove refine a sorted association list; the eviction case removes the head | partial |
| C08 | Capacity eviction removes only the oldest entry | Store (`Put`, insertOrSwap), Avl | AVL put/remove refine a sorted association list; the eviction case removes the head | partial |
| C09 | Meta describes the stored contents | Store (`Meta`, counters) | invariant by induction over operations relating counters to the history | proved |
| C10 | Expired counts account for every envelope that left a source | Store (`Meta`, counters) | invariant by induction over operations relating counters to the history | proved |
| C11 | Sources are isolated | Store | frame conditions, by unfolding over the association-list index | proved |
| C12 | Pruning removes exactly the globally oldest envelopes | Store (`truncate`), Heap (Go container/heap on an array) | heap invariant; loop invariant: what was removed is below everything that stays | proved |
| C13 | Pruning never crashes the server, whatever quantity is requested | Store (`truncate`) | exact crash condition (heap empties before the quantity is reached); sufficient conditions over histories; witness | partial |
| C14 | Emptied sources disappear and restart cleanly | Store (`Meta`, counters) | invariant by induction over operations relating counters to the history | proved |
| C15 | The store-size gauge equals the number of stored envelopes | Store (gauges) | exact drift law and conservation law by induction over operations; witness | partial |
| C16 | The cache-period gauge reflects the oldest envelope after a prune | Store (gauges) | exact drift law and conservation law by induction over operations; witness | partial |
| C17 | Reads have no side effects on stored data | Store | frame conditions, by unfolding over the association-list index | proved |
| C18 | Name filters select exactly the named metrics | Store (`filterByName`) | case analysis against a per-kind specification | proved |
| C19 | The prune quantity is proportionate | Reader (`GetQuantityToPrune` over rationals), Prune (the same in float64, and the memory analyzer) | arithmetic; error bounds of the roundings | partial |
| C20 | Concurrent Puts and reads are linearizable | Conc: storage objects, threads, locks; one step per lock-protected section | linearization: simulation between schedules and sequential runs, by induction over steps; witnesses as explicit schedules | proved |
| C21 | Concurrent calls and prunes never crash the server | Conc | no-crash invariants for exclusive / prune-free schedules; every crash traced to its cause; witness schedules | partial |
| C22 | An acknowledged Put is readable | Conc: storage objects, threads, locks; one step per lock-protected section | linearization: simulation between schedules and sequential runs, by induction over steps; witnesses as explicit schedules | partial |
| C23 | Meta never crashes the server | Conc | no-crash invariants for exclusive / prune-free schedules; every crash traced to its cause; witness schedules | partial |
| C24 | Read requests are validated and defaulted | Reader (`LocalStoreReader.Read`) | case analysis: rejected iff, defaults | proved |
| C25 | Envelope type ANY | Reader (`LocalStoreReader.Read`) | case analysis: rejected iff, defaults | proved |
| C26 | End to end Read contract over Put histories | Reader over Store histories | composition of C02-C04 with C24 | proved |
| C27 | Routing lookup is exact | Routing (`RoutingTable`, any table order) | list reasoning, invariance under permutation of the map | proved |
| C28 | Routing tables are replaced wholesale and independent of map order | Routing (`RoutingTable`, any table order) | list reasoning, invariance under permutation of the map | proved |
| C29 | Lookup and LookupAll agree | Routing (`RoutingTable`, any table order) | list reasoning, invariance under permutation of the map | proved |
| C30 | Scheduler ranges partition the hash space | Routing (scheduler loop modulo 2^64, static lookup) | arithmetic with the wrap-around; induction over the loop | partial |
| C31 | Static lookup is total, in range, monotone and balanced | Routing (scheduler loop modulo 2^64, static lookup) | arithmetic with the wrap-around; induction over the loop | proved |
| C32 | Ingress delivers each envelope exactly to its owners, in order | Proxy (`IngressReverseProxy.Send`), Spec/Cluster | list reasoning over any iteration order of the groups | proved |
| C33 | Forwarding happens at most once | Proxy (`IngressReverseProxy.Send`), Spec/Cluster | list reasoning over any iteration order of the groups | proved |
| C34 | Reads are served by an owner, preferably locally | Proxy (`EgressReverseProxy.Read`), Spec/Cluster | case analysis; number of hops by induction over the forwarding relation; witness: two nodes that forward to each other for ever | proved |
| C35 | Cluster read-your-writes | Proxy + Store + Reader as a cluster machine (Spec/Cluster) | invariant over cluster runs: store + queues are a permutation of what was sent | proved |
| C36 | Read forwarding terminates | Proxy (`EgressReverseProxy.Read`), Spec/Cluster | case analysis; number of hops by induction over the forwarding relation; witness: two nodes that forward to each other for ever | partial |
| C37 | Cluster Meta merges all reachable nodes | Proxy (Meta merge, caches) | fold lemma; invariant over overlapping calls | proved |
| C38 | Meta responses are at most one cache period old | Proxy (Meta merge, caches) | fold lemma; invariant over overlapping calls | proved |
| C39 | Orchestrator range list | Routing (orchestrator ranges on a shared slice, scheduler comm) | induction over requests; witness for aliasing | proved |
| C40 | ListRanges answers are snapshots | Routing (orchestrator ranges on a shared slice, scheduler comm) | induction over requests; witness for aliasing | partial |
| C41 | Only the leader changes assignments | Routing (orchestrator ranges on a shared slice, scheduler comm) | induction over requests; witness for aliasing | proved |
| C42 | Replication gives every source the configured number of owners | Routing (`RoutingTable`, any table order) | list reasoning, invariance under permutation of the map | proved |
| C43 | Walk delivers each envelope at most once, in order | Walk as a step machine against an arbitrary reader | induction over steps | proved |
| C44 | Walk stays inside its window | Walk as a step machine against an arbitrary reader | induction over steps | proved |
| C45 | Walk is complete on a static log | Walk as a step machine against an arbitrary reader | induction over steps | partial |
| C46 | A following walk skips nothing | Walk as a step machine against an arbitrary reader | induction over steps | partial |
| C47 | Retry back-off gives up after its limit | Walk as a step machine against an arbitrary reader | induction over steps | proved |
| C48 | Query errors are not silently turned into partial data | Walk (data reader configuration) | outcomes by induction over the walk, on top of C45 and C47; witness run | partial |
| C49 | Windows tile time | Walk (windows) | closed form of the k-th window; tiling by induction | proved |
| C50 | Requests carry the current token | Client (`Oauth2HTTPClient`): sequential function and thread machine | invariant over call lists; invariants (lock, token provenance) over schedules; witness schedule | partial |
| C51 | The HTTP client speaks to servers of every version | Client (version probe, HTTP Read) | case analysis over versions and answers | proved |
| C52 | Read options arrive at the server | Client (options as query parameters, gateway decoding) | fold lemmas per parameter; decimal round trip | partial |
| C53 | Sanitized metric names are valid and stable | Promql (`SanitizeMetricName`) | pointwise character analysis | proved |
| C54 | Different label sets are different series | Promql (`Select`, series builder, iterators) | builder as grouping of a list; injectivity of series ids; binary search invariant; witnesses | partial |
| C55 | Query selectors honour their label matchers | Promql (`Select`, series builder, iterators) | builder as grouping of a list; injectivity of series ids; binary search invariant; witnesses | partial |
| C56 | Seeking in a series finds the first point at or after a time | Promql (`Select`, series builder, iterators) | builder as grouping of a list; injectivity of series ids; binary search invariant; witnesses | partial |
| C57 | The authorization check sees every source a query reads | Promql (visitors over expression trees) | structural induction over the query | proved |
| C58 | Source-id expansion is exact | Promql (visitors over expression trees) | structural induction over the query | proved |
| C59 | Query answers are a function of the stored data | Promql (`Select`, series builder, iterators) | builder as grouping of a list; injectivity of series ids; binary search invariant; witnesses | partial |
| C60 | Iterating a series visits every point once | Promql (`Select`, series builder, iterators) | builder as grouping of a list; injectivity of series ids; binary search invariant; witnesses | proved |
| C61 | Read access control | Auth (middleware), Promql | case analysis; composition of C57/C58: what the forwarded query names | proved |
| C62 | Query access control is not bypassable | Auth (middleware), Promql | case analysis; composition of C57/C58: what the forwarded query names | proved |
| C63 | Meta access control | Auth (middleware), Promql | case analysis; composition of C57/C58: what the forwarded query names | proved |
| C64 | Cached authorizations are fresh and per token | Auth (CAPI client cache) | invariants over call histories; witnesses for overlapping calls | proved |
| C65 | CAPI is not hammered | Auth (CAPI client cache) | invariants over call histories; witnesses for overlapping calls | partial |
| C66 | Pruning the token cache is invisible | Auth (CAPI client cache) | invariants over call histories; witnesses for overlapping calls | partial |
| C67 | CAPI listings are complete or rejected and tokens stay on the CAPI host | Auth (CAPI pagination) | induction over the chain of pages; witness: endless chain | proved |
| C68 | Token keys follow UAA | Auth (UAA client) | invariants over histories; exact accept/crash conditions | proved |
| C69 | UAA refreshes are throttled | Auth (UAA client) | invariants over histories; exact accept/crash conditions | partial |
| C70 | Tokens are accepted only with a valid known signature | Auth (UAA client) | invariants over histories; exact accept/crash conditions | proved |
| C71 | Nozzle batches are bounded, ordered and lossless up to visible drops | Nozzle | machine invariant over schedules: conservation, order, bounds; list equality for selectors | partial |
| C72 | The nozzle subscribes to the configured envelope kinds | Nozzle | machine invariant over schedules: conservation, order, bounds; list equality for selectors | partial |
| C73 | The access log records every request once | Door (access log entry, middleware) | list reasoning over the printed line; induction over requests; witnesses | partial |
| C74 | Syslog conversion | Syslog | case analysis per kind; decimal round trips; witnesses | partial |
| C75 | Nothing gets past the front door | Door (routes of the proxy, patterns of the gateway), Auth | both routers as functions of the path, composed with C61/C62; witnesses | partial |
| C76 | PromQL results survive the marshaler | Marshal (JSON trees, abstract float library), JsonText (their text), Float | structural round trips under the text laws of `FloatLaws`, which are proved for float64; reading of written text by mutual induction on the tree | proved |
| C77 | Reads never crash on unknown envelope types | Store (`validEnvelopeType`, the two traversals) | witness for the crash; the traversal of a tree is shown equal to an early-stopping scan of its list of envelopes, and the crash condition follows by induction over that list | partial |
| C78 | Metrics account for every envelope | Store (gauges) | exact drift law and conservation law by induction over operations; witness | proved |
| C79 | The cache-period metric before any memory prune | Store (gauges) | exact drift law and conservation law by induction over operations; witness | proved |
| C80 | Ranges of unknown addresses are ignored | Routing (`RoutingTable`, any table order) | list reasoning, invariance under permutation of the map | partial |
| C81 | Orchestration requests never crash a node | Routing (`RoutingTable`, any table order) | list reasoning, invariance under permutation of the map | partial |
| C82 | Every Send is answered | Proxy (`IngressReverseProxy.Send`), Spec/Cluster | list reasoning over any iteration order of the groups | partial |
| C83 | Client i talks to node i | Proxy (`setupClients`), Routing (scheduler worker) | induction over addresses; agreement of pushed tables | partial |
| C84 | Every node gets the table the leader computed | Proxy (`setupClients`), Routing (scheduler worker) | induction over addresses; agreement of pushed tables | proved |
| C85 | Query data reads apply the Read API's default end time | Walk (data reader configuration) | outcomes by induction over the walk, on top of C45 and C47; witness run | partial |
| C86 | A CAPI outage does not revoke cached rights | Auth (CAPI client cache) | invariants over call histories; witnesses for overlapping calls | partial |
| C87 | CAPI listings end | Auth (CAPI pagination) | induction over the chain of pages; witness: endless chain | partial |
| C88 | Every token is answered | Auth (UAA client) | invariants over histories; exact accept/crash conditions | partial |
| C89 | Syslog conversion is deterministic | Syslog | case analysis per kind; decimal round trips; witnesses | partial |
| C90 | Instance id and source type of syslog messages | Syslog | case analysis per kind; decimal round trips; witnesses | proved |
| C91 | Syslog messages keep their time | Syslog | case analysis per kind; decimal round trips; witnesses | partial |
| C92 | Error answers are never read as results | Marshal (JSON trees, abstract float library), JsonText (their text), Float | structural round trips under the text laws of `FloatLaws`, which are proved for float64; reading of written text by mutual induction on the tree | proved |
| C93 | Query values arrive as computed | Marshal (JSON trees, abstract float library), JsonText (their text), Float | structural round trips under the text laws of `FloatLaws`, which are proved for float64; reading of written text by mutual induction on the tree | partial |
| C94 | The store size is the number of readable envelopes under concurrency | Conc | count invariant over schedules; witness schedules; for C95 the refinement of the sequential store extended by the oldest timestamp and the Put that is about to store it | partial |
| C95 | The cache period is that of the oldest envelope under concurrency | Conc | count invariant over schedules; witness schedules; for C95 the refinement of the sequential store extended by the oldest timestamp and the Put that is about to store it | partial |
| C96 | Times and steps of queries mean what they say | Float (IEEE 754 rounding, decimal text) | rounding is to the nearest number; error bounds over the rationals; witnesses | partial |
| C97 | Queries are answered with all their data or not at all | Query (engine as interaction tree), Float, Promql | induction over the engine program; composed with C55 | proved |
| C98 | A Meta answer was true while the call ran | Conc (Meta as visit steps and count steps) | invariants over schedules that carry the moment of each copied line; counting invariant per storage object; witness schedules | partial |
| C99 | Meta misses no source | Conc (Meta as visit steps and count steps) | invariants over schedules that carry the moment of each copied line; counting invariant per storage object; witness schedules | proved |
| C100 | Finding an envelope stays cheap | Avl (with nil dereferences as panics), Store | AVL balance invariant through put and remove, lifted to histories; height bound by induction | proved |
| C101 | Query times given to the client library reach the server | Float (IEEE 754 rounding, decimal text) | rounding is to the nearest number; error bounds over the rationals; witnesses | partial |
| C102 | What a node forwards arrives in order or is counted | Diode (ring buffer and batcher from recollection, BatchedIngressClient) | ring invariant by induction over operations; queue refinement | partial |
| C103 | Concurrent Sends do not disturb forwarding | Diode (Set as five memory accesses) | simulation of one writer with readers; witnesses for every buffer size | partial |
| C104 | A query means the same over HTTP and over gRPC | PromClient (queries of the client, gateway error handler) | options by induction; composed with C76 (marshaler round trip) and C101 | partial |
| C105 | A raw query carries the server's result or its error text | PromClient (queries of the client, gateway error handler) | options by induction; composed with C76 (marshaler round trip) and C101 | partial |
| C106 | Clients see the gateway's version and uptime | JsonText (answer of the information endpoint and its decoding) | reading of quoted text by induction; composed with C51 | partial |
| C107 | The measured reliability is the received share of the expected test metrics | Blackbox, Float | rounding error bounds over the rationals; case analysis; induction over ticks and attempts; witnesses | partial |
| C108 | What the blackbox measured is published | Blackbox, Float | rounding error bounds over the rationals; case analysis; induction over ticks and attempts; witnesses | partial |
| C109 | Test metrics come at regular times and failures are reported | Blackbox, Float | rounding error bounds over the rationals; case analysis; induction over ticks and attempts; witnesses | partial |
| C110 | A syslog connection delivers its messages | SyslogStream, SyslogParse, Times | reactive model of the connection, drain_append (a stream may be cut anywhere) by strong induction; exact grammar theorems (iff) for dates, fields, structured data, messages; composition with C74/C90 | partial |
| C111 | Log lines of conforming senders arrive as they were sent | SyslogStream, SyslogParse, Times | reactive model of the connection, drain_append (a stream may be cut anywhere) by strong induction; exact grammar theorems (iff) for dates, fields, structured data, messages; composition with C74/C90 | partial |
| C112 | Timestamps of 64 bits do not change what the store does | Store64 (the store with wrap-around) | simulation of the 64 bit store by the unbounded one, by induction over histories | partial |
| C113 | A read over HTTP returns the envelopes the gateway got | EnvelopeJson (jsonpb writer and reader on JSON trees, base64, floats with exponents), JsonText | round trips per field type, composed per message; text through the grammar theorem C76_grammar; order and names by lookup lemmas | proved |
| C114 | How strictly the client library reads answers | EnvelopeJson (jsonpb writer and reader on JSON trees, base64, floats with exponents), JsonText | round trips per field type, composed per message; text through the grammar theorem C76_grammar; order and names by lookup lemmas | proved |
| C115 | What is sent over gRPC arrives | Protobuf (varints, fields, proto3 rules, all messages of the four .proto files and of loggregator_v2) | parse-after-write for field lists; one lemma per field type, composed per message; maps by permutations of sorted lists; bytes compared with a flat specification with literal tags | proved |
| C116 | Nodes of different versions understand each other | Protobuf (varints, fields, proto3 rules, all messages of the four .proto files and of loggregator_v2) | parse-after-write for field lists; one lemma per field type, composed per message; maps by permutations of sorted lists; bytes compared with a flat specification with literal tags | proved |
| C117 | Settings mean what they say | Config (go-envstruct, time.ParseDuration with its float64 fractions), Float, Num | grammar of durations as a specification; rounding error bounds; iff per kind of setting; induction over tables | proved |
| C118 | Misspelt settings are refused | Config (go-envstruct, time.ParseDuration with its float64 fractions), Float, Num | grammar of durations as a specification; rounding error bounds; iff per kind of setting; induction over tables | partial |
| C119 | Accepted settings work | Config, Store, Routing | composed with C01 and C30; arithmetic of ticks; witnesses with the real tables | partial |
| C120 | Requests go to the configured gateway | Config (net/url, httputil from recollection) | parsing lemmas for schemes and hosts; witnesses | partial |
| C121 | Envelopes land on the nodes they belong to | Config, Proxy | composed with the setup lemma of C83; induction over hops and answers; witnesses | partial |
| C122 | The scheduler leads when it is told so | Config, Proxy | composed with the setup lemma of C83; induction over hops and answers; witnesses | partial |
| C123 | A token key that UAA has withdrawn is no longer accepted | AuthConc (atomic steps of RefreshTokenKeys and IsAuthorized with times) | invariants by induction over timed histories: where a stale key may still be met; every cached list comes from one call; concrete races | partial |
| C124 | A withdrawn right ends | AuthConc (atomic steps of RefreshTokenKeys and IsAuthorized with times) | invariants by induction over timed histories: where a stale key may still be met; every cached list comes from one call; concrete races | partial |
| C125 | Meta of a cluster is at most one cache period behind the stores | MetaCluster (the caches of all nodes, fetches as intervals), Proxy | invariant over timed histories with a reading interval for every cached answer; merge by C37; parametric histories for the negations | partial |
| C126 | A user who may read a source gets what was sent for it | EndToEnd: envelopes of the wire get names in the store model (injective, keeping what the store looks at); a read is the composition of door, gateway request, node, answer bytes through nodes and gateway, and the client; messages above 4 MiB are refused | C126 composition of C115, C35, C24, C75, C52, C113 and uniqueness of the order by time; C127, C128 sizes of encodings (invariant under map orders, monotone under name filters), witnesses with payloads given by their length | partial |
| C127 | A permitted read is answered however large the answer is | EndToEnd: envelopes of the wire get names in the store model (injective, keeping what the store looks at); a read is the composition of door, gateway request, node, answer bytes through nodes and gateway, and the client; messages above 4 MiB are refused | C126 composition of C115, C35, C24, C75, C52, C113 and uniqueness of the order by time; C127, C128 sizes of encodings (invariant under map orders, monotone under name filters), witnesses with payloads given by their length | partial |
| C128 | Batching does not lose envelopes | EndToEnd: envelopes of the wire get names in the store model (injective, keeping what the store looks at); a read is the composition of door, gateway request, node, answer bytes through nodes and gateway, and the client; messages above 4 MiB are refused | C126 composition of C115, C35, C24, C75, C52, C113 and uniqueness of the order by time; C127, C128 sizes of encodings (invariant under map orders, monotone under name filters), witnesses with payloads given by their length | partial |
| C129 | What is received over syslog can be read | SyslogCluster over the cluster model of C35: requests of syslog servers are local-only | conservation of envelopes per node split by requests, as for C35; two node witness | partial |
| C130 | Commands talk only to servers that prove who they are | Model/Tls: configurations built from settings and files, the outgoing connections and listeners, the decision of client and server in a handshake; certificates are numbers with a meaning given by the world. | Props/Tls: case analysis over connections and configurations, as equivalences. | proved |
| C131 | Nodes serve only callers with a certificate of the authority | Model/Tls: configurations built from settings and files, the outgoing connections and listeners, the decision of client and server in a handshake; certificates are numbers with a meaning given by the world. | Props/Tls: case analysis over connections and configurations, as equivalences. | partial |
| C132 | What a client asks for is what the gateway reads | Model/Url: escaping, Encode and parsing of net/url on bytes, the request target, reading it. | Proof/Url: unescaping inverts escaping byte by byte; the separators do not occur in escaped parts; values of a key survive sorting and collecting. Props/Url composes with C52 and C104; FairRead of C126 uses it. | partial |
| C133 | An instant query for a metric returns its newest value | Model/Engine: series sets and iterators of promql.go:418-523, the buffered iterator and the selector evaluation of the engine (library, from recollection), composed with the handlers of Model/Query. | Proof/Engine: invariant of the buffered iterator over increasing seeks; Proof/EngineSelect: the series of a selector as filtered logs (C54, C55, C56); Proof/EngineShown: first and last of a filtered list; Props/Engine composes. | partial |
| C134 | A range query agrees with instant queries | Model/Engine: series sets and iterators of promql.go:418-523, the buffered iterator and the selector evaluation of the engine (library, from recollection), composed with the handlers of Model/Query. | Proof/Engine: invariant of the buffered iterator over increasing seeks; Proof/EngineSelect: the series of a selector as filtered logs (C54, C55, C56); Proof/EngineShown: first and last of a filtered list; Props/Engine composes. | partial |
| C135 | Sources are spread evenly over the hash space | Hash: makeTable, slicing tables, update, Checksum as in hash/crc64, over 64-bit vectors. | One shift of the state is multiplication by X modulo the polynomial and is linear and injective; eight bytes at once are 64 shifts. Uniqueness by degree; the share of a range by the bijection on eight bytes. | proved |
| C136 | What the nozzle counts as delivered can be read | NozzleCluster: the transition system of the nozzle and that of the cluster together; a delivery of the nozzle is a Send at a node, a failure may be one. | Conservation in the nozzle (C71) and read-your-writes of the cluster (C35); equal counters leave nothing lost, dropped or failed. | partial |
| C137 | A range selector sees every point of its range | Engine, EngineRange: buffered iterator with any delta, matrixIterSlice, matrixSelector, functions of a range | the buffer after a fresh Seek is the slice of the points between the two times; composed with the series of Select | partial |
| C138 | A stored value is returned to a client that queries for it | PromClient: promNode, a node whose engine evaluates plain selectors, behind the gateway and the client library. | C133 and C134 say what the node answers, C104 that the answer arrives, C101 that times of whole seconds are read exactly. | partial |
| C139 | The HTTP interface means the same without the client library | Client: gatewayRead; PromClient: gatewayServe with the marshaler on doubles. | The parameters and the format are given in Spec/HttpWire.lean by names, with the JSON grammar of Spec/JsonGrammar.lean; text of values by C96 backwards. | proved |
| C140 | A Send returns when its data has been stored | the cluster of Spec/Cluster.lean: the proxies of Model/Proxy.lean over one store per node, with lossy queues between nodes | every run gives every store a history of puts; the puts of one request are counted with handle_spec and kept by C07 as long as a key is free, which the pigeonhole principle gives | partial |
| C141 | Puts, reads and prunes together behave like a sequential store | Conc and the sequential Store | simulation with three phases (idle, building the heap, removing), invariant: what is left of the prune loop of the sequential store; replay of the calls in the order in which they took effect | partial |
| C142 | The client library reads from gateways of every version | semver.Parse (Model/Semver), the info endpoint as text and the choice of the path | semverParse_iff: the parser accepts exactly the texts of the grammar in Spec/Semver; then C106_read; the empty text is no version | partial |
| C143 | A walk delivers a source however large its envelopes are | Spec/WalkGrpc: reads of a walk by way of grpc over the cluster of C126, with the limit on messages at every hop | C126 on each page gives its exact outcome (grpcRead_iff); large pages leave the state of the walk as it is; small ones satisfy the paging of C45 | partial |
| C144 | Windows over a growing source skip nothing | Walk (windowBegin, windowStep), Spec/Window: runs of Window over walks, with the ticks of a ticker | by C144_over all envelopes of a window can be read when its walk begins, so the walk is one over a fixed log (C45); windows are put together as in C49; witness for half a second | partial |
| C145 | A walk or a Window ends when its context ends | Walk, Spec/Window | induction over runs; a run for every number of ticks | partial |
| C146 | A walk with an end time ends | Walk | induction over runs: reads so far plus the count of the back-off against the rest of the window; a run of every length for AlwaysRetryBackoff | partial |
| C147 | Senders of syslog do not disturb each other | Model/SyslogServer: accepted connections as goroutines with a shared state, over the connections of SyslogStream | for every connection a simulation by the server with only that connection, which takes the events of the connection; what is sent is tagged with its connection | partial |
| C148 | The status of a failed read or query says whose fault it was | Model/Status: the codes of the errors of Read through gRPC, gateway and proxy | case distinction over route, parameters and result, with C24 for the refused requests and C61 for the proxy | partial |
| C149 | A query by the name of an app is answered from every app of that name | `GetRelatedSourceIds` with the request it makes (names joined with commas) and what the Cloud Controller lists for it, composed with the query handler of the proxy. | Splitting the joined names gives the names back unless they contain commas; then C67 (related ids) and C62 (exact rewriting); witnesses for commas, outages and reads. | partial |
| C150 | The meta endpoint has the documented format and content | The marshaler of the proxy (camel case, empty fields left out, keys sorted), composed with `onlyAuthorized` and the decoder of the client library; `Spec/ProxyMeta` has the README's format. | The writer's text is a JSON document (as for C113); every omitted field is read as zero; the grammar is unambiguous (C76), which gives the negative results. | partial |
| C151 | Metrics of conforming senders arrive as they were sent | Model.Syslog, Model.SyslogParse and Model.SyslogStream with the real strconv.ParseFloat (Model.SyslogMetric). | C110_frames and C111_parse give the parsed messages, C74_structured and C96_numbers their meaning; induction over the messages. | partial |
| C152 | A node on its own keeps everything | Model.Standalone: New, its options, Start and the client slices of setupRouting; Spec.Standalone: runs of one node with Sends, SetRanges and prunes. | Induction over runs: with one address every range, known or not, is that of client 0 (own_lookup), so that Sends reach only the own store (own_send); with C32, C33, C82 and C26. | partial |
| C153 | Options of the libraries mean what they say | The constructors as folds over lists of options; the read options of a walk, which go through the models of the HTTP and gRPC paths of Read; the tasks of the scheduler; the handler of the auth proxy as a composition of middlewares. | A general lemma on folds that set fields; the reads by composition with C52, the tasks with C30. | proved |
| C154 | What crashes of nodes lose and what they do not | Spec/Crash.lean: the cluster with crashes: new store, no table, buffers gone | conservation law by induction on the history; counterexample runs | partial |
| C155 | A round of the scheduler makes the nodes agree on where every source belongs | Scheduler: the loop of Start as two terms and a push, over agents and tables of the nodes; the orchestrator library may make any calls | agents by C39/C81, the pushed table by C84, lookups by C27/C28/C42; witnesses with two nodes | partial |
| C156 | A cluster recovers once its tables agree again | The cluster with crashes of C154, and the rounds of the scheduler of C155. | From the time on at which the tables agree, the books of each owner gain exactly what is sent (induction over the continuation); what it held before is some of what had been sent (induction over the history); then the store theorem C26 for spread out times. | partial |
| C157 | What was sent for a source is what queries return, whichever node is asked | Spec/QueryEnd.lean (ReadsByWalks: the reader behind the queries of a node is a walk by grpc reads; RestsFor), on Model/{Walk,Routing,Reader,Promql,PromServe,Protobuf}.lean | the walk ends because every page moves its start on (measure: time left to the stop); C143_walk_partial says what it delivers; then C138 with the logs that were sent. A window that ends before it begins is turned down five times, and the walk returns nothing. | partial |
| C158 | A user's query returns what was sent of the sources they may read | Model/QueryDoor.lean: askProxy is a request of the client library seen as bytes, proxyQuery the query route of the proxy with the bodies of its refusals, and the rewritten request, again as bytes, at the gateway. | C62_exact gives the sources the rewritten selector names; it has the metric and the other labels of the asked one, so that C157 for it is the claim; C132_seen for both hops. | partial |
| C159 | The client library asks for tokens with its own credentials | Model/Oauth2.lean: the options, the two requests as form bytes with the login, the reading of the answer. Spec/Oauth2.lean: FormSays (what a server reads in a form), BasicLogin (RFC 7617). | encoding and reading of forms as in C132; a text is the base64 of one byte string; the answer by C106_field; the sent token by evaluation of one call of Do. | partial |
| C160 | Answers of CAPI and UAA and the contents of tokens are read as they were written | Model/AuthText.lean: what encoding/json makes of the bodies for the structs of the two clients (names without case), the answers as the inputs of Model/Auth.lean, the seconds of a token through float64 and int64. Spec/AuthText.lean: what a document says, on the grammar of JSON, without reference to the reading | lemmas on the only field of a name, C76_grammar and C76_decoder; C67, C68 and C70 composed with the texts; round_floor for the exactness of seconds | partial |
| C161 | Requests go to the configured addresses | The clients' requests as functions of the configured address, over the model of url.Parse of C120; what http.Client refuses to send. | urlParse_full and urlParse_named of C120, with the paths put in as each client does. | partial |
| C162 | The life of the syslog server | Events of the goroutines of a syslog server as a transition relation with times (Model/Lifecycle); what is claimed is said on histories of events (Spec/Lifecycle). | Invariants along histories; the open connections and their deadlines are a function of the history. | partial |
| C163 | Closing a node | The steps of Close, of the goroutine that serves and of requests as a transition relation (Model/Lifecycle). | Invariants along histories: which steps have happened determines the flag and where the goroutine is. | partial |
| C164 | A user's walk over HTTP delivers all that was sent | The options a walk reads with (Model/WalkHttp), the client library's bytes, the proxy, gateway, nodes and answers of C126, the walk of C143. | A page over HTTP gets what the page over grpc gets (C126, C127 and the walk's options mean its request), so that a walk over HTTP is a walk over grpc. | partial |
| C165 | What Meta tells a user is what was sent | LocalStoreReader.Meta, the answers of nodes as bytes, the merge of C37, the gateway and the auth proxy's answer (Model/MetaEnd), on the cluster of C35 and the store of C01. | What a store tells of a source is a function of what was put into it (induction over the run of the store); at rest that is what was sent (C35, C115); the messages keep it (C115, C113, C150). | partial |
| C166 | What Meta tells a user at any time was true a short while ago | The histories of C125, one field at a time, and the way from a node to the user of C165. | The merged answer has each source once (C37), so it comes through whole (C115, C113, C150); then C125. | proved |
| C167 | What a user reads while nodes crash and recover | The histories with crashes of C154 and C156, and the way from a node to the user of C126, for any cluster (`fair_through`). | A store holds some of what was put into it (`stored_sub_put`, by induction over its history), which is some of what was sent (the books of C154; `prune_books` lifts them to runs in which nodes prune, by a run without pruning that keeps in step); reads return a part of that in its order (C02). Recovery: C156 at the nodes (`C156_pruned_partial`: a store that has pruned has, beside what it had, all that is put later, `spread_after`), C115 and C132 on the way. | partial |
| C168 | What Meta tells a user while nodes crash and recover | The histories with crashes of C154 and C156, and Meta from the stores to the user as in C165. | What a store tells is bounded by what was put into it (C09, C10 and newest_put, by induction over its history), which is some of what was sent (the books of C154); the merge keeps the last entry (C37), and the way to the user is C166_through. Recovery: what an owner has (calm_kept of C156) is summarised (store_summary of C165); if nodes pruned before, what an owner holds is pruned_holds, and Meta agrees with it (C09). The counterexample is a run of two nodes. | partial |
| C169 | What queries return while nodes crash | No new model: the engine of C133, the walk of C43, grpc reads of a cluster after any history (C167) and the way to the user (C158). | A page of a walk is some of what was sent by then (grpc_only of C167's pieces), what the visitor gets is made of pages (crash_walk, induction over the walk), what the selector hands to the engine is of envelopes it was given (select_only, induction over its rings), and a point of an answer at a step is one of these, from the five minutes before it (selectorMatrix_mem: the buffer holds only points from before the step, by induction over the steps). No order is needed, so no condition on times. After a recovery the owner of a source answers from one log (recovered_nodes, from C156_pruned_partial), a walk returns all of it (nodesRead_reader, as C157_reader), and C138 says what the engine makes of it. | partial |
| C170 | What a user's walk delivers while nodes crash | No new model: the walk of C43, a page by way of the auth proxy and the gateway (C164) and the Reads of a cluster after any history (C167). | A page is a part of what was sent for the source (C167_any), from the time asked for on and, with spread-out times, in the order of time (crash_page). What Walk keeps of it is a beginning of it, and the next start is after its last time (crash_step), so that parts of different pages have different times and together are a part of what was sent (someWire_join). Induction over the walk. Recovery: the first page that is answered is C167_recovers_partial, and Walk cuts nothing off (walkTrim_none). Smaller pages: an envelope that a page does not show is later than the last it shows, so the next start is not after it (C167_pages_partial); induction over the walk. | partial |

## Where the code disagrees with the property

For these the negation is proved with a concrete witness (`_false`), and what does hold is proved as `_partial`, or outright under the stated condition.

* **C03** (Ascending reads are complete: the oldest matching envelopes, oldest first): False with equal timestamps (C03_ascending_complete_false); proved for distinct timestamps and, up to overshoot, for timestamp-ordered storage (C03_ascending_monotone_partial), which is shown to be that of every history whose equal timestamps are spread out, in any order of arrival, with evictions and prunes (C03_spread_partial; exact if there is room for all results, C03_spread_all_partial). Witness: `C03_ascending_complete_false`.
* **C04** (Descending reads are complete: the newest matching envelopes, newest first): False with equal timestamps (C04_descending_complete_false); proved for distinct timestamps, and for equal ones that are spread out as for C03. Witness: `C04_descending_complete_false`.
* **C05** (A read never returns more than limit envelopes beyond a group of equal timestamps): False (C05_limit_false); exact limit proved for distinct timestamps; for any timestamps the overshoot is at most twice the number of moved entries (C05_overshoot_partial). Witness: `C05_limit_false`.
* **C06** (A limited read never splits a group of equal timestamps): False (C06_group_split_false); resuming proved lossless for distinct timestamps. Witness: `C06_group_split_false`.
* **C07** (A Put never destroys another envelope except by the documented capacity eviction): False at 4002 equal timestamps (C07_put_keeps_all_false); proved while a key is free; C07_spread_partial for equal timestamps that are spread out, also in full sources. Witness: `C07_put_keeps_all_false`.
* **C08** (Capacity eviction removes only the oldest entry): False from capacity 4002 on (C08_evicts_false); proved up to capacity 4001 (C08_evicts_small) and while a key is free. Witness: `C08_evicts_false`.
* **C13** (Pruning never crashes the server, whatever quantity is requested): False after overwrites (C13_prune_crash_false); exact crash condition proved. Witness: `C13_prune_crash_false`.
* **C15** (The store-size gauge equals the number of stored envelopes): False after overwrites (C15_store_size_false); exact drift law proved. Witness: `C15_store_size_false`.
* **C16** (The cache-period gauge reflects the oldest envelope after a prune): False with several sources (C16_cache_period_false). Witness: `C16_cache_period_false`.
* **C19** (The prune quantity is proportionate): False for huge usage (C19_overflow_false) and when the memory of the system cannot be read: the error is ignored, the percentage becomes infinite and nothing is ever pruned (C19_unknown_memory_false). The rest proved, in exact arithmetic and in float64 (C19_float_within, C19_float_range, C19_float_quantity); C19_float_monotone: monotone in float64 for every whole percentage, which are those that can be configured. Witness: `C19_overflow_false`, `C19_unknown_memory_false`.
* **C21** (Concurrent calls and prunes never crash the server): False (C21_false, C21_leak_false); proved for exclusive schedules and without pruning; causes of every crash proved. Witness: `C21_false`, `C21_leak_false`.
* **C22** (An acknowledged Put is readable): False (C22_false); proved while the source is not dropped since the Put was made. Witness: `C22_false`.
* **C23** (Meta never crashes the server): False (C23_false); proved while no source is dropped during the Meta. Witness: `C23_false`.
* **C30** (Scheduler ranges partition the hash space): Proved for every count from 1 to 2^32; false at 2^32+1 (C30_wrap_false). Witness: `C30_wrap_false`.
* **C36** (Read forwarding terminates): False when tables disagree (C36_terminates_false); at most one hop proved when they agree, or when every named node owns the id by its own table (C36_owners_agree_partial). C36_chain: exactly which chains of forwards occur; C36_forever_iff: forwarding can go on for ever exactly if a Read can come back to a node; C36_acyclic_partial: otherwise fewer hops than nodes. Witness: `C36_terminates_false`.
* **C40** (ListRanges answers are snapshots): False (C40_snapshot_false): the returned list aliases the live slice. C40_removed: exactly what a RemoveRange does to a list handed out before; C40_snapshot_partial: additions do nothing to it. Witness: `C40_snapshot_false`.
* **C45** (Walk is complete on a static log): On an abstract log proved outright, also for whole groups of one time (C45_groups); on the real store false (C45_store_false) and proved for distinct timestamps (C45_store_partial) and for times that are spread out when a read has room for everything (C45_spread_partial). Witness: `C45_store_false`.
* **C46** (A following walk skips nothing): False (C46_follow_false); proved when lateness plus read latency stay within the delay, also for whole groups of one time (C46_groups_partial). Witness: `C46_follow_false`.
* **C48** (Query errors are not silently turned into partial data): False (C48_partial_data_false); the possible outcomes are proved. Witness: `C48_partial_data_false`.
* **C50** (Requests carry the current token): Proved for sequential calls; false for concurrent ones (C50_race_false), what remains true is C50_concurrent_partial; documented 401 rule false (C50_only_401_false). Witness: `C50_only_401_false`, `C50_race_false`.
* **C52** (Read options arrive at the server): Proved for known envelope types; false for unknown ones (C52_unknown_type_false). Hypotheses: int64 range, which Go types guarantee. Witness: `C52_unknown_type_false`.
* **C54** (Different label sets are different series): False for labels containing dashes (C54_series_false); proved for unambiguous labels. Witness: `C54_series_false`.
* **C55** (Query selectors honour their label matchers): False for != and instance_id (C55_not_equal_false, C55_instance_id_false) and for the value of a timer of more than 292 years (C55_timer_false); proved for equality on ordinary labels. Witness: `C55_not_equal_false`, `C55_instance_id_false`, `C55_timer_false`.
* **C56** (Seeking in a series finds the first point at or after a time): False for colliding labels (C56_order_false); Seek itself is exact on every series in time order (C56_seek), and series are in time order when labels do not collide. Witness: `C56_order_false`.
* **C59** (Query answers are a function of the stored data): False for gauges with two metrics of the selected name (C59_gauge_false). C59_select_partial: otherwise, with labels that do not collide (C54), a selector fails or answers with the same series whatever the order of tags, gauge metrics and source ids. Witness: `C59_gauge_false`.
* **C62** (Query access control is not bypassable):  Witness: `C62_pipe_false`.
* **C65** (CAPI is not hammered): Proved for sequential calls; false for concurrent ones (C65_concurrent_false). Witness: `C65_concurrent_false`.
* **C66** (Pruning the token cache is invisible): Proved when prune rounds do not overlap calls; false otherwise (C66_race_false). Witness: `C66_race_false`.
* **C69** (UAA refreshes are throttled): Proved for sequential calls; false for concurrent ones (C69_concurrent_false). Witness: `C69_concurrent_false`.
* **C71** (Nozzle batches are bounded, ordered and lossless up to visible drops): Proved except that drops are metered (C71_drop_false) and that egress never overtakes ingress (C71_ahead_false): both false. Witness: `C71_ahead_false`, `C71_drop_false`.
* **C72** (The nozzle subscribes to the configured envelope kinds): Proved for known names; false for unknown ones (C72_unknown_false). Witness: `C72_unknown_false`.
* **C73** (The access log records every request once): Proved for requests without line feeds; false otherwise (C73_forged_false), and for IPv6 addresses without brackets (C73_ipv6_false). Witness: `C73_forged_false`, `C73_ipv6_false`.
* **C74** (Syslog conversion): Conversion proved exact; counting false on failed sends (C74_counted_false); crash-freedom false (C74_crash_false), exact crash condition proved. Witness: `C74_crash_false`, `C74_counted_false`.
* **C75** (Nothing gets past the front door): Proved up to a final colon in the source id (C75_colon_false); C75_alias_false holds for gateway libraries that know JSON field names. Serving false for ids with colons or rewritten segments. Witness: `C75_colon_false`, `C75_alias_false`, `C75_unreadable_false`, `C75_unclean_false`, `C75_redirect_false`.
* **C76** (PromQL results survive the marshaler): C76_exact is about JSON trees, C76_text and C76_line about the text sent; C76_grammar, C76_decoder and C76_unambiguous: the reader accepts exactly the texts of the grammar of RFC 8259. For every float library with the stated text laws (FloatLaws), which C76_float64 proves for float64. Witness: `C76_nil_false`.
* **C77** (Reads never crash on unknown envelope types): False (C77_unknown_type_panics is the counterexample). C77_crash_only: whatever the history and the timestamps, a crash needs an envelope in the window that passes the name filter and trips; C77_safe_before: requests that are safe although they carry an unknown type, for every store. C77_crash_iff_partial: for sources without equal timestamps, exactly which reads crash; C77_crash_monotone_partial and C77_crash_all_partial (C77_crash_spread_partial for histories): with equal timestamps in storage order, when reads must crash, exactly so if there is room for all results. Missing: equal timestamps out of order, and how far a read goes beyond its limit. Witness: `C77_unknown_type_panics`.
* **C79** (The cache-period metric before any memory prune):  Witness: `C79_evicted_false`.
* **C80** (Ranges of unknown addresses are ignored): False (C80_unknown_address_false). C80_lookup_partial: where every range goes, for every list of nodes and request: nodes other than the first get exactly their own ranges, the first also those of all unknown addresses. Witness: `C80_unknown_address_false`.
* **C81** (Orchestration requests never crash a node): False (C81_no_crash_false); proved when every AddRange carries a range; exact crash condition C81_crash_iff. Witness: `C81_no_crash_false`.
* **C82** (Every Send is answered): False (C82_empty_send_false); proved for all other Sends. Witness: `C82_empty_send_false`.
* **C83** (Client i talks to node i): False when a dial fails (C83_clients_false); proved when all dials succeed; in general C83_clients_exact_partial and C83_local_iff. Witness: `C83_clients_false`.
* **C85** (Query data reads apply the Read API's default end time): False (C85_default_end_false, for every run). With an end time given, C48_outcomes_partial says what a data read returns. Witness: `C85_default_end_false`.
* **C86** (A CAPI outage does not revoke cached rights): False (C86_outage_false); proved while no further fetch is made. Witness: `C86_outage_false`.
* **C87** (CAPI listings end): False (C87_endless_false); proved for finite chains of pages. Witness: `C87_endless_false`.
* **C88** (Every token is answered): False (C88_crash_false); exact crash condition proved, for every way the JWT library may decode headers: a library that refuses tokens without a string algorithm itself leaves only the missing key id. Witness: `C88_crash_false`.
* **C89** (Syslog conversion is deterministic): Proved for at most one structured-data element; false for two. Witness: `C89_several_false`, `C89_deterministic_false`.
* **C91** (Syslog messages keep their time): Proved for times in int64 nanoseconds; false beyond. Witness: `C91_time_false`.
* **C93** (Query values arrive as computed): End to end proved under FloatLaws, and for float64 (C93_float64); crash-freedom false for string values (C93_crash_false). Witness: `C93_crash_false`.
* **C94** (The store size is the number of readable envelopes under concurrency): False (C94_count_false); proved without late commits and crowded Puts. Witness: `C94_count_false`.
* **C95** (The cache period is that of the oldest envelope under concurrency): False (C95_oldest_false). C95_never_older_partial: in every schedule without pruning the oldest timestamp is never older than the sequential one; C95_serial_partial: it is equal, and so is the cache period, when no Put takes effect between the taking effect and the return of another. Missing: runs that prune. Witness: `C95_oldest_false`.
* **C96** (Times and steps of queries mean what they say): Exact for whole seconds, otherwise within half a microsecond; false to the millisecond (C96_millis_false), out of range (C96_overflow_false) and for steps (C96_step_false). Dates exact (C96_date, C96_date_only); durations exact while they fit in 64 bits (C96_duration), not beyond (C96_duration_false). strconv, time.Parse and model.ParseDuration are modelled from recollection, strconv without hexadecimal numbers. Witness: `C96_millis_false`, `C96_overflow_false`, `C96_step_false`, `C96_duration_false`.
* **C98** (A Meta answer was true while the call ran): False (C98_mixed_false, C98_empty_false); C98_meta_partial is what remains true. Witness: `C98_mixed_false`, `C98_empty_false`.
* **C101** (Query times given to the client library reach the server): False to the millisecond (C101_client_false); proved bounds in C101_client_time. Witness: `C101_client_false`.
* **C102** (What a node forwards arrives in order or is counted): False for requests the other node does not take (C102_failed_false); proved otherwise for one Send at a time. The ring buffer and the batcher are dependencies transcribed from recollection. Witness: `C102_failed_false`.
* **C103** (Concurrent Sends do not disturb forwarding): False (C103_lost_false, C103_stall_false); proved for any number of calls one after the other, interleaved with the reader instruction by instruction (C103_in_turn_partial). Witness: `C103_lost_false`, `C103_stall_false`.
* **C104** (A query means the same over HTTP and over gRPC): False for an empty result message (C104_empty_false); proved for all other answers. Float text laws as in C76. Witness: `C104_empty_false`.
* **C105** (A raw query carries the server's result or its error text): False for foreign answers (C105_unchecked_false); proved for the answers of the gateway. Witness: `C105_unchecked_false`.
* **C106** (Clients see the gateway's version and uptime): False for versions with quotes or backslashes (C106_escape_false); proved for all other versions and all uptimes; C106_meaning gives what is read for every version that is the inside of a JSON string, C106_field which answers are accepted. semver.Parse is a parameter. Witness: `C106_escape_false`.
* **C107** (The measured reliability is the received share of the expected test metrics): False for fractions of seconds (C107_expected_false) and for aligned windows (C107_window_false, given that a range selector is closed at both ends, as in the Prometheus engine of that time) and when the window is shorter than the distance (C107_short_false). Witness: `C107_expected_false`, `C107_short_false`, `C107_window_false`.
* **C108** (What the blackbox measured is published): False with the default configuration (C108_disabled_false). Witness: `C108_disabled_false`.
* **C109** (Test metrics come at regular times and failures are reported): False (C109_silent_false, C109_missing_false); the rest proved. Witness: `C109_silent_false`, `C109_missing_false`.
* **C110** (A syslog connection delivers its messages): False (C110_after_error_false, C110_long_false, C110_slow_false, C110_empty_false); the rest proved. The octet-counting parser is a dependency modelled from recollection. Witness: `C110_after_error_false`, `C110_long_false`, `C110_empty_false`, `C110_slow_false`.
* **C111** (Log lines of conforming senders arrive as they were sent): False for messages without process id or text (C111_crash_false); proved for all log lines with both. The RFC 5424 parser is a dependency modelled from recollection; the theorem C111_parse shows the model accepts exactly the grammar. Witness: `C111_crash_false`.
* **C112** (Timestamps of 64 bits do not change what the store does): False at the end of the range (C112_end_false); C112_run transfers every theorem about histories of the store (Run) to 64 bit arithmetic for timestamps before it, C112_period gives the gauge. Witness: `C112_end_false`.
* **C118** (Misspelt settings are refused): Full property is false: switches and lists are never refused; proved for numbers and durations. C118_alone: without NODE_ADDRS a node is set up as the only one. Witness: `C118_switch_false`, `C118_comma_false`, `C118_default_false`.
* **C119** (Accepted settings work): Full property is false: zero and negative settings are accepted; proved for positive settings. Witness: `C119_count_false`, `C119_interval_false`, `C119_tokens_false`, `C119_blackbox_false`, `C119_capacity_false`.
* **C120** (Requests go to the configured gateway): Full property is false for host:port without scheme; proved for URLs and bare names. Witness: `C120_port_false`, `C120_ip_false`.
* **C121** (Envelopes land on the nodes they belong to): Full property is false as indexes are not checked; proved when every index is the node's place. Witness: `C121_outside_false`, `C121_single_false`, `C121_swapped_false`.
* **C122** (The scheduler leads when it is told so): Full property is false: bodies of answers are never closed; proved while connections remain. Witness: `C122_bodies_false`.
* **C123** (A token key that UAA has withdrawn is no longer accepted): Full property is false (races, no periodic refresh); proved for refreshes that are not followed by stores of calls that asked earlier. Witness: `C123_race_false`, `C123_lost_false`, `C123_forever_false`.
* **C124** (A withdrawn right ends): Full property is false for slow answers; proved with the latency of CAPI added to the bound. Witness: `C124_slow_false`, `C124_overtaken_false`.
* **C125** (Meta of a cluster is at most one cache period behind the stores): Full property is false (two caches in a row, failed requests); proved with two periods and the delays. Witness: `C125_two_periods_false`, `C125_hidden_false`.
* **C126** (A user who may read a source gets what was sent for it): Whole path composed from C115, C35, C24, C75, C52 and C113, with the answer passing every node on its way. Partial: for clusters at rest with distinct timestamps, ids without colon, newline and rewritten segments, answers within the grpc limit. C126_spread_partial: the same for sources whose equal times are spread out (the others may have any times), if the limit leaves room for all of the source. The request is taken from its bytes (C132); the engine of name filters is a predicate. Refuted for equal times without room (C126_equal_times_false) and for ids with colons: C126_colon_false (nobody gets anything), C126_stranger_false (a user gets a source they have no right to). Witness: `C126_equal_times_false`, `C126_colon_false`, `C126_stranger_false`.
* **C127** (A permitted read is answered however large the answer is): False for large answers (C127_large_false; C127_large shows that then every read fails); C127_bound_partial: answered when limit times envelope size fits in 4 MiB. The limit of grpc-go is from recollection; no server or client of the repository sets another. Witness: `C127_large_false`.
* **C128** (Batching does not lose envelopes): False for large envelopes (C128_batch_false for every writer, C128_forward_false); C128_bound_partial and C128_sizes_partial: arrives when the largest number times the size fits. Witness: `C128_batch_false`, `C128_forward_false`.
* **C129** (What is received over syslog can be read): False if the node is not the owner (C129_elsewhere_false); C129_owner_partial says exactly what every read returns, C129_own_node that nothing is missing when syslog servers write to the owner. C129_spread_partial: the same when only the source that is read has its equal times spread out. Witness: `C129_elsewhere_false`.
* **C130** (Commands talk only to servers that prove who they are): With SKIP_CERT_VERIFY (proxy to UAA and CAPI) or SKIP_TLS_VERIFY (blackbox) any server with a key of its own passes (C130_skip_false). The decisions of crypto/tls are modelled from recollection. The blackbox calls the proxy with the authorities of the system. Witness: `C130_skip_false`.
* **C131** (Nodes serve only callers with a certificate of the authority): False: NewMutualTLSConfig sets RootCAs but neither ClientAuth nor ClientCAs, and the node uses it as server credentials, so every node that starts serves callers without a certificate (C131_anyone_false): whoever reaches the port can read, write and set the ranges. What a node does demand is TLS 1.2 with two suites or later, exactly (C131_caller_partial); the same holds of the proxy, whose callers show tokens (C131_proxy), and the gateway, which asks for no token, takes TLS 1.0 too (C131_gateway). The syslog server asks its callers for no certificate either (C131_syslog); none of these listeners starts without its own certificate (C131_no_certificate). Setting ClientAuth and ClientCAs on the listener would make the claim true (C131_repaired_partial). Witness: `C131_anyone_false`.
* **C132** (What a client asks for is what the gateway reads): Everything but the last sentence is proved (C132_seen, C132_line, C132_read, C132_promql). The last is false: URL.Query() leaves out parameters with malformed escapes and the request is served without them (C132_malformed_false). net/url is modelled from recollection. Witness: `C132_malformed_false`.
* **C133** (An instant query for a metric returns its newest value): C133_instant_partial with C133_whole_second; C133_reader: the reader behind the queries of a node satisfies its hypothesis on reads (on distinct timestamps, C45). Not seen: an envelope of the time of the query (C133_now_false). Excluded: matchers for which C55 is false, labels that collide (C54). The engine and its buffered iterator are a library modelled from recollection; staleness markers are left out. Witness: `C133_now_false`.
* **C134** (A range query agrees with instant queries): C134_range_partial says exactly what is shown at each step; C134_like_instant when it is what an instant query shows; C134_future_false a disagreement; C134_zero_step_false the crash of a query with one time and step 0; C134_short_step: all other steps from 0 to a millisecond are refused. C134_steps: the loop of the engine (from memory) goes through the steps; C134_negative_step_false: with a negative step it does not end. plainRange does not consider negative steps. Witness: `C134_future_false`, `C134_zero_step_false`, `C134_negative_step_false`.
* **C136** (What the nozzle counts as delivered can be read): False as stated (C136_lost_false). Composed from C71 and C35: for clusters at rest with one table, without losses between nodes, distinct timestamps and room for the source; C136_spread_partial and C136_counts_spread_partial when only the source that is read has its equal times spread out. Witness: `C136_lost_false`.
* **C137** (A range selector sees every point of its range): Proved for selectors that compare labels for equality and clear labels, for envelopes from before the query's time. False for an envelope of exactly the query's time (C137_end_false): the read behind the selector ends before it. The engine is from recollection; functions of ranges in range queries are not modelled. Witness: `C137_end_false`.
* **C138** (A stored value is returned to a client that queries for it): Composed from C104, C105, C101, C76 (on doubles) and C133, C134, with their conditions. C138_now_false: not for an envelope of the time given. The parser of the engine is any function; a read that fails is in C104. Witness: `C138_now_false`.
* **C140** (A Send returns when its data has been stored): False for a source of another node: the serving node has only put the envelope into the buffer of its batched client, it is in no store when Send returns, and a full buffer or a failed batch loses it for good (C140_false, C140_elsewhere_partial say exactly what is stored and queued). True of the sources the serving node owns and of local-only requests (C140_stored_partial), with one stored copy per mention of the node in its own table (C140_own_copies). Background prunes between the request and its return are not modelled here (C10-C12 bound them). Witness: `C140_false`.
* **C141** (Puts, reads and prunes together behave like a sequential store): C141_false: a run of which no sequential history with the same Puts, in whatever order, gives the stored envelopes and the count. C141_alone_partial and C141_history_partial: in runs in which no call waits while a prune removes, prunes are single steps of the sequential store; C141_reports_partial: when such a prune returns, the oldest timestamp and the cache period are its too. The store as it runs does not enforce that: Puts and reads arrive while the prune loop runs. Witness: `C141_false`.
* **C142** (The client library reads from gateways of every version): C142_path and C142_refused together cover every version text without quotes, backslashes and control characters (C106_escape_false says what those do). The full claim is refuted by C142_unset_false. semver.Parse is modelled from knowledge of blang/semver version 3, which is not in /repo. Witness: `C142_unset_false`.
* **C143** (A walk delivers a source however large its envelopes are): C143_walk_partial for sizes within the limit, for any back-off and number of hops between nodes, on distinct timestamps (C45). C143_walk_false, C143_stuck, C143_retries_forever and C143_query_gets_nothing refute the rest. A page is never asked for again with a smaller limit. Contexts that end are left out here (C48). Witness: `C143_walk_false`.
* **C144** (Windows over a growing source skip nothing): C144_growing_partial and, for windows of at most 100 envelopes, which may have the same time, C144_shared_partial (with C144_over for the windows and their times); C144_short_false for short intervals. The timeout of a walk is a failed read here. Witness: `C144_short_false`.
* **C145** (A walk or a Window ends when its context ends): C145_walk holds in full; C145_window_partial says when a Window returns, C145_window_false that an ended context is not among the reasons. Readers that answer although the context has ended are not covered (Walk then goes on). Witness: `C145_window_false`.
* **C146** (A walk with an end time ends): C146_ends and C146_default hold in full; C146_retry_partial says when a walk with AlwaysRetryBackoff over a fixed log ends, C146_retry_false that it may never. Witness: `C146_retry_false`.
* **C147** (Senders of syslog do not disturb each other): C147_apart_partial while the process runs, C147_crash_partial exactly when it ends, C147_alone ties the single connection to C110 and C74; refuted by C147_crash_false and C147_deaf_false. Handling a result is one step. Witness: `C147_crash_false`, `C147_deaf_false`.
* **C148** (The status of a failed read or query says whose fault it was): C148_gateway_partial and C148_no_route give the exact status when the node that is asked owns the source or nobody does, C148_forwarded otherwise; C148_proxy and C148_query_passed for the proxy. Refuted by C148_blame_false, C148_outage_false, C148_query_false. The table of grpc-gateway from codes to statuses is from recollection. Witness: `C148_blame_false`, `C148_outage_false`, `C148_query_false`.
* **C149** (A query by the name of an app is answered from every app of that name): C149_query_partial: with a reachable Cloud Controller, and for names without a comma and ids without '|', the forwarded query names exactly the permitted ids among those asked for and the apps of those names; C149_read_from: each is then read, or the query fails. False in general: C149_comma_false (a name with a comma never finds its app), C149_outage_false (while the Cloud Controller does not answer, an admin's query is answered without the apps' data and without an error), C149_read_false (reads never take names). Witness: `C149_comma_false`, `C149_outage_false`, `C149_read_false`.
* **C150** (The meta endpoint has the documented format and content): C150_user: what the client library reads through the proxy is, per id, what the log cache answered if the caller is an admin or the source is available to them, and nothing else; C150_read: the body is read back with the same numbers; C150_refused: the statuses otherwise. C150_format_partial: the body has the documented format, if a source is listed and its count and times are not zero. False in general: C150_empty_false (no field meta at all without a source), C150_zero_false (times that are zero are left out), C150_gateway_false (the gateway itself names the fields oldest_timestamp and newest_timestamp, so clients that ask it directly never see the documented names). Witness: `C150_empty_false`, `C150_zero_false`, `C150_gateway_false`.
* **C151** (Metrics of conforming senders arrive as they were sent): C151_metrics: every mixture of log lines, counters, gauges, events and timers, each line following RFC 5424 with one element whose parameters come in any order and among others, is stored completely and in order. C151_gauge_exact: every float64 can be sent and is stored to the last bit. C151_other_data: a message whose elements have other names is lost. Refuted by C151_tags_false, C151_event_false. Witness: `C151_tags_false`, `C151_event_false`.
* **C152** (A node on its own keeps everything): False as documented (C152_standalone_false: no scheduler, nothing stored, Sends succeed). C152_forwards_none and C152_kept are exact for every history; C152_stores_all_partial composes with C26. C152_options and C152_command settle the options and their defaults; C152_clustered says what clients a member of a cluster has. Options of grpc are opaque names; that a listener can be opened is assumed. Witness: `C152_standalone_false`.
* **C154** (What crashes of nodes lose and what they do not): False as stated: a node that crashed and has its ranges again answers Reads itself, from its empty store, although another owner holds the data (C154_hidden_false), and a Send answered with success is lost with the buffer of the node that took it (C154_acknowledged_false). Proved instead: exact books of what was for a node, is stored, on its way or gone (C154_accounts), completeness of an owner that stays up (C154_survivor_partial), exactness of one that crashed (C154_restarted_partial), who answers (C154_who_answers). Not covered: pruning for memory, which is no step of these histories. Witness: `C154_hidden_false`, `C154_acknowledged_false`.
* **C155** (A round of the scheduler makes the nodes agree on where every source belongs): False when nodes do not answer (C155_absent_false, C155_unreached_false); proved for rounds in which all requests get through, with the placement by the orchestrator library as a hypothesis (its source is not in the sandbox), and the exact tables for every round (C155_tables). Witness: `C155_absent_false`, `C155_unreached_false`.
* **C159** (The client library asks for tokens with its own credentials): C159_options, C159_user, C159_client_partial (with C159_one_login: a server reads one user and one password in the header), C159_answer, C159_sent, C159_refused. False: a client id with a colon is read as another client (C159_colon_false); an answer without a token is not an error, the request is sent with a token that is a space (C159_empty_false). Assumed: the Authorization header of a URL with a user is net/http's; the address can be parsed. Witness: `C159_colon_false`, `C159_empty_false`.
* **C160** (Answers of CAPI and UAA and the contents of tokens are read as they were written): C160_page, C160_page_only, C160_listing, C160_ids_only, C160_keys, C160_keys_only, C160_token, C160_access, C160_admin_only, C160_read (with C61_chain: every Read sent on goes back to signed texts). False for the most distant expiry times: C160_forever_false. Objects that repeat a field are left out of the reading theorems (Go merges them); the 'only' theorems cover them as far as the model takes the last field. PEM and JWT signatures are parameters. Witness: `C160_forever_false`.
* **C161** (Requests go to the configured addresses): False as stated: C161_prefix_false, C161_port_false, C161_slash_false. C161_client_partial, C161_auth_partial: where requests go with addresses scheme://host[:port][/path] (for the gateway's address see C120). Addresses with users, queries, fragments or escapes are not modelled. Witness: `C161_prefix_false`, `C161_port_false`, `C161_slash_false`.
* **C162** (The life of the syslog server): C162_stop, C162_failed and C162_connection hold for every history. C162_early_stop_false, C162_serving_false: where the claim fails. Missing: a server started twice, and the time that handling a message takes. Witness: `C162_serving_false`, `C162_early_stop_false`.
* **C163** (Closing a node): C163_answered and C163_crash hold for every history; C163_early_false is the exception. GracefulStop and Serve of grpc are taken as documented. Witness: `C163_early_false`.
* **C164** (A user's walk over HTTP delivers all that was sent): C164_page says what each page gets, at every node; C164_answered that it gets an answer; C164_walk_partial is the walk, C164_stuck and C164_walk_false what happens with large pages. As in C143: the cluster does not change during the walk, all is older than the delay, no two envelopes of a source have the same time; the rights of the user and their token stay as they are. Witness: `C164_walk_false`.
* **C165** (What Meta tells a user is what was sent): C165_user_partial is the claim for answers that fit in a grpc message, C165_fits when they do, C165_large and C165_user_false what happens when they do not, C165_stranger the refusal. Assumed: equal times of a source are spread out as in C126 (atRest_spread: distinct times are), no source has more envelopes than a node keeps per source and nothing is pruned (C09 says what Meta tells then); answers that nodes keep for metaCacheDuration are from after the cluster came to rest (C38, C125). The newest time of a source with all times below 0 is told as 0, see C09. Witness: `C165_user_false`.
* **C167** (What a user reads while nodes crash and recover): C167_only and, for whatever request, C167_any hold after any history (FairTables: no table names a node twice for an id). C167_recovers_partial needs, as C156 and C126, equal times that are spread out, room for all of the source in the store and in the limit of the request, and an answer that fits in a grpc message (else C167_only says that there is no answer). C167_pages_partial: with a smaller limit the answer is a first part of what matches, as long as the limit or all of it. C167_any also gives the order of time if equal times are spread out. Refuted for envelopes taken with an OK: C167_acknowledged_false. C167_only and C167_any cover stores that prune at any time; C167_recovers_partial those that prune before the recovery. A prune that panics (C13) is a crash. Witness: `C167_acknowledged_false`.
* **C168** (What Meta tells a user while nodes crash and recover): C168_only holds after any history (FairTables: no table names a node twice for an id) in which the numbers fit in 64 bits (SmallNumbers). C168_recovers_partial needs in addition, as C167, equal times that are spread out and room for all of the source in a store, an answer that fits in a grpc message, an owner that is heard, and that no other node holds any of the source; without the last it is refuted by C168_moved_false. C168_only covers stores that prune at any time; C168_pruned_partial is C168_recovers_partial for stores that also prune before the recovery: what was pruned is told of as expired, and the oldest time may be up to the fudge (4000 ns) too late. Neither covers stores that prune after it. Not covered: answers that nodes kept from earlier (C38, C125, C166). Witness: `C168_moved_false`.
* **C170** (What a user's walk delivers while nodes crash): C170_batch_partial: every batch, whatever the times. C170_once_partial: the whole walk. The reader (HttpCrashReader) fails whenever it likes, or answers by the cluster after some history of its own (AnyHistory for a first part of what was sent). C170_covers: the walks of C164, over a cluster at rest, are among these. C170_recovers_partial: after a recovery (Recovered of C167) the first page that is answered has all that was sent since, if one page has room for all of the source; C170_all_partial: however small the pages are, a walk that ends after a recovery has delivered each envelope sent since whose time no other one of the source has; C170_answered_partial: every node answers its reads, unless a page is too large for a message; C170_recovered_covers: C170_once_partial speaks of these walks, too. C170_twice_false: that no envelope comes twice is false if equal times are not spread out: the store keeps the later one of two of time 1 after one of time 2, and a page that ends with it makes the next page begin at time 2 again (C43 asks for reads that are sorted, and such a page is not). Missing: times of 2^63-1 (the next start would wrap), sources with equal times larger than a page after a recovery (a page that ends between two of equal time skips the second, as C164 says), and that nothing is missing while nodes crash, which is false (C167_acknowledged_false). Witness: `C170_twice_false`.

## What is modelled

| code | model |
|---|---|
| `internal/cache/store/store.go`, `prune_consultant.go` | Store, Store64, Heap, Avl, Num, Conc, Reader, Prune |
| `internal/cache/memory_analyzer.go` | Prune (the values `Memory` returns; its gauges are not) |
| `gods/trees/avltree` (dependency, from recollection), `container/heap` (standard library) | Avl, Heap |
| `internal/routing/*.go` except the gRPC glue | Reader, Routing, Proxy, MetaCluster (caches of several nodes over time), SyslogCluster (requests of the syslog server) |
| `internal/cache/log_cache.go` (client setup, local puts), `internal/scheduler/*.go` | Proxy, Routing |
| `pkg/client/{walk,window,client,oauth2_http_client}.go` (Read, version probe, token handling) | Walk, Client |
| `internal/promql/promql.go` (Select, series, visitors), `data_reader` | Promql, Walk |
| `internal/promql/{promql,parsing}.go` (query handlers, times and steps), query times of `pkg/client` | Query, Float, FloatShort |
| `internal/auth/*.go` (middleware, CAPI client, UAA client) | Auth, AuthConc (with overlapping requests and time), Names (apps by name), ProxyMeta (the body of `/api/v1/meta`) |
| access log, routes of the proxy, patterns of the gateway (`internal/auth`, `internal/gateway`, `pkg/rpc/logcache_v1/*.pb.gw.go`) | Door |
| `internal/nozzle/nozzle.go` | Nozzle, NozzleCluster (its requests) |
| `internal/routing/batched_ingress_client.go` with go-diodes and go-batching (dependencies, from recollection) | Diode |
| `internal/syslog/server.go` (conversion, counters) | Syslog |
| `internal/syslog/server.go` (connections), `influxdata/go-syslog` (dependency, from recollection: octet counting and RFC 5424 parsers) | SyslogStream, SyslogParse; SyslogServer (several connections at once) |
| `time.Parse` for RFC 3339, `model.ParseDuration` (dependencies, from recollection) | Times |
| `pkg/marshaler/marshaler.go`, `internal/promql` result conversion | Marshal |
| `encoding/json` (standard library), information endpoint of `internal/gateway/gateway.go` | JsonText |
| `ReadResponse`, `MetaResponse` as JSON (`jsonpb`, dependency, from recollection) | EnvelopeJson |
| `/repo/api/v1/*.proto`, generated `*.pb.go`, protocol buffer encoding (dependency, from recollection) | Protobuf |
| `pkg/client/client.go` (queries), `internal/gateway/gateway.go` (error handler) | PromClient, Status (statuses of reads and queries) |
| `cmd/*/config.go`, `cmd/{cf-auth-proxy,scheduler}/main.go` (gateway address, leadership), `go-envstruct`, `time.ParseDuration`, `net/url`, `httputil` (dependencies, from recollection) | Config |
| the way of an envelope from a Send through stores, nodes, gateway and client, with the size limit of grpc messages | EndToEnd (composes Protobuf, Proxy, Reader, Door, EnvelopeJson) |
| requests of `pkg/client/client.go` as bytes, as the generated `*.pb.gw.go` read them (`net/url`, standard library, from recollection) | Url |
| `internal/promql/promql.go:418-523` as used by the engine on a plain selector, with or without a range (`promql` and `storage` of Prometheus, libraries, from recollection) | Engine, EngineRange |
| version of the gateway as `pkg/client/client.go` reads it (`blang/semver`, dependency, from recollection) | Semver |
| hasher of `internal/cache/log_cache.go` (`hash/crc64`, standard library, from recollection) | Hash |
| `internal/tls/tls.go`, the TLS set-up in `cmd/*/main.go`, `internal/cfauthproxy`, `internal/gateway`, `internal/blackbox`; the decisions of `crypto/tls` (standard library, from recollection) | Tls |
| `internal/blackbox/blackbox.go`, the loop of `cmd/blackbox/main.go` | Blackbox |

## Not expressible / not modelled

* Wall-clock timing, scheduling fairness, memory usage of the Go runtime, gRPC
  transport. Of TLS only the configurations and whom they accept are modelled (Tls), not the
  cryptography; the listener of the syslog server (`tlsconfig`, a dependency) is modelled from recollection. Path cleaning and route matching by gorilla/mux and grpc-gateway are
  modelled from recollection (Door).
* Protobuf: groups and the preservation of unknown fields when a message is written again
  are not modelled; otherwise messages are modelled as bytes (Protobuf). In the other modules
  messages are records (justified by C115). JSON is modelled as text (JsonText; the
  writer and reader of encoding/json from its documentation, without invalid UTF-8 and without
  duplicate or differently cased field names). Not modelled are the PromQL parser and
  evaluation engine (the query is a tree; a plain selector is evaluated in Engine) and the
  regular expression engine (a predicate). In the routing modules the hash is an arbitrary
  function; the one that is used is modelled in Hash. go-diodes and go-batching are modelled
  from recollection (Diode); in the nozzle the buffer is a lossy queue (justified by C71_buffer).
* float64: reading, rounding, multiplication, division and printing are exact in Float and
  used for times, and so is the shortest notation of values (FloatShort,
  `FormatFloat(v, 'f', -1, 64)` from memory). The marshaler theorems take the text laws of
  float formatting as the hypothesis structure `FloatLaws`, which is proved for float64
  (C76_float64). The arithmetic of the query engine is not modelled.
* `main` packages: the settings and what is done with them are modelled (Config), the wiring of
  the parts and profiling servers are not. The Prometheus metrics registry.

## Trusted base

Lean's kernel; the axioms `propext`, `Classical.choice`, `Quot.sound` at most, per
theorem below; the fidelity of the model to the Go code, as cited definition by
definition; the recollection of dependency code that is not in the sandbox
(`github.com/emirpasic/gods` AVL tree, `go-diodes`, `influxdata/go-syslog`, `time.Parse`, Prometheus'
duration syntax, `go-envstruct`, `time.ParseDuration`, `net/url`, `httputil`, `blang/semver`, grpc-gateway
parameter decoding), which is marked as such where it is modelled.  No axioms are added,
and no proof uses `sorry`, `admit`, `native_decide` or `bv_decide`.

### Axioms of each property theorem (output of `#print axioms`)

* **(none)** (16): `C27_initial`, `C33_local_only`, `C38_failure_not_cached`, `C41_leader_only`, `C41_push`, `C71_ahead_false`, `C93_crash_false`, `C82_empty_send_false`, `C83_clients_false`, `C87_ends_partial`, `C100_search`, `C103_serial_partial`, `C116_empty`, `C131_no_certificate`, `C153_library_walks`, `C163_early_false`

* **Classical.choice, Quot.sound, propext** (601): `C01_cap_concurrent`, `C01_capacity`, `C01_put_total`, `C02_read_sound_concurrent`, `C02_read_sound`, `C02_read_order`, `C03_spread_partial`, `C03_spread_all_partial`, `C03_ascending_complete_partial`, `C03_ascending_monotone_partial`, `C03_in_order_partial`, `C03_ascending_complete_false`, `C04_spread_all_partial`, `C04_descending_complete_partial`, `C04_descending_complete_false`, `C05_overshoot_partial`, `C05_limit_partial`, `C05_limit_false`, `C06_group_split_false`, `C06_resume_partial`, `C07_spread_partial`, `C07_put_keeps_all_partial`, `C07_put_keeps_all_false`, `C08_evicts_small`, `C08_evicts_false`, `C08_evicts_oldest_partial`, `C09_meta_agrees`, `C09_oldest_exact`, `C09_newest_stale`, `C10_conservation`, `C10_bookkeeping`, `C11_isolation`, `C12_prune_oldest`, `C12_prune_exact`, `C13_prune_crash_iff`, `C13_prune_no_crash_partial`, `C13_prune_distinct_partial`, `C13_prune_sparse_partial`, `C13_prune_crash_false`, `C14_emptied_source`, `C15_store_size`, `C15_store_size_partial`, `C15_store_size_false`, `C16_cache_period_partial`, `C16_cache_period_false`, `C18_name_filter`, `C19_none_within`, `C19_quantity`, `C19_range`, `C19_monotone`, `C19_not_excessive`, `C19_overflow_false`, `C19_float_within`, `C19_float_range`, `C19_float_quantity`, `C19_unknown_memory_false`, `C19_float_monotone`, `C20_linearizable`, `C20_reads`, `C20_history`, `C21_false`, `C21_leak_false`, `C21_exclusive_partial`, `C21_no_pruning_partial`, `C21_causes_partial`, `C22_false`, `C22_stays_partial`, `C22_returned_took_effect`, `C23_false`, `C23_meta_partial`, `C94_count_false`, `C94_count_partial`, `C95_oldest_false`, `C95_never_older_partial`, `C95_serial_partial`, `C25_any`, `C25_any_ignored`, `C26_read_api`, `C26_spread`, `C26_read_contract`, `C27_lookup_exact`, `C28_last_request`, `C28_total`, `C30_partition`, `C31_static`, `C31_in_range_monotone`, `C32_delivery`, `C32_no_owner`, `C33_forward_once`, `C35_read_your_writes`, `C35_stored`, `C35_spread`, `C36_terminates_false`, `C36_chain`, `C36_forever_iff`, `C36_acyclic_partial`, `C36_owners_agree_partial`, `C37_meta_merge`, `C45_spread_partial`, `C45_static_log`, `C45_groups`, `C45_store_partial`, `C45_store_false`, `C47_gives_up`, `C48_outcomes_partial`, `C48_partial_data_false`, `C54_series_id_partial`, `C54_series_partial`, `C54_series_false`, `C55_selector_partial`, `C55_not_equal_false`, `C55_instance_id_false`, `C55_select_reads_all`, `C55_timer_false`, `C57_extract`, `C57_reads_only`, `C57_reads_all`, `C61_chain`, `C62_names_authorized`, `C62_no_leak`, `C62_exact`, `C62_pipe_false`, `C63_meta`, `C64_fresh`, `C64_refusal`, `C65_rate_partial`, `C65_concurrent_false`, `C66_prune_partial`, `C66_race_false`, `C68_success`, `C68_failure`, `C70_accept`, `C70_bearer`, `C70_no_bearer`, `C71_buffer`, `C71_batch_size`, `C71_conservation`, `C71_order`, `C71_counters`, `C71_bounded`, `C72_selectors_partial`, `C72_each`, `C72_unknown_false`, `C74_structured`, `C74_log`, `C74_counter_roundtrip`, `C74_timer_roundtrip`, `C74_crash_partial`, `C74_crash_false`, `C74_counts`, `C74_counted_false`, `C89_several_partial`, `C89_several_false`, `C89_deterministic_partial`, `C89_deterministic_false`, `C90_instance`, `C91_time_partial`, `C91_time_false`, `C76_float64`, `C76_grammar`, `C76_unambiguous`, `C76_decoder`, `C76_json`, `C76_text`, `C76_line`, `C76_marshal`, `C76_roundtrip`, `C76_exact`, `C76_nil_false`, `C92_error_body`, `C92_only_results`, `C93_float64`, `C93_end_to_end`, `C77_crash_spread_partial`, `C77_unknown_type_panics`, `C77_crash_iff_partial`, `C77_crash_only`, `C77_crash_monotone_partial`, `C77_crash_all_partial`, `C77_safe_before`, `C78_global_conservation`, `C79_cache_period_before_prune`, `C79_cache_period`, `C79_evicted_false`, `C42_owners`, `C80_unknown_address_false`, `C80_lookup_partial`, `C82_no_crash_partial`, `C83_clients_partial`, `C83_clients_exact_partial`, `C83_local_iff`, `C84_worker_state`, `C84_pushed_tables_agree`, `C46_follow_false`, `C49_groups`, `C49_windows`, `C56_series_ordered_partial`, `C56_order_false`, `C58_expansion`, `C58_each_selector`, `C58_rest_unchanged`, `C59_select_partial`, `C59_gauge_false`, `C60_next`, `C86_outage_false`, `C86_cached_partial`, `C86_steady_partial`, `C87_endless_false`, `C88_crash_partial`, `C88_crash_false`, `C50_only_401_false`, `C50_concurrent_partial`, `C50_schedule`, `C50_race_false`, `C51_path`, `C51_uptime`, `C51_meta`, `C52_http`, `C52_grpc_partial`, `C52_unknown_type_false`, `C73_all_served`, `C73_lines_partial`, `C73_forged_false`, `C73_fields`, `C73_escaping`, `C73_time`, `C75_read`, `C75_read_partial`, `C75_colon_false`, `C75_alias_false`, `C75_query`, `C75_closed`, `C75_served_partial`, `C75_unreadable_false`, `C75_unclean_false`, `C75_redirect_false`, `C75_gateway_paths`, `C100_logarithmic`, `C100_no_nil`, `C100_lookup`, `C96_nearest`, `C96_numbers`, `C96_words`, `C96_errors`, `C96_seconds`, `C96_near_partial`, `C96_order`, `C96_dates`, `C96_millis_false`, `C96_overflow_false`, `C96_step_false`, `C96_step_overflow`, `C96_answer_time`, `C96_date`, `C96_date_only`, `C96_duration`, `C96_duration_false`, `C96_duration_only`, `C97_instant`, `C97_range`, `C97_instant_answer`, `C97_range_answer`, `C97_bad_time`, `C97_bad_range`, `C101_client_time`, `C101_client_false`, `C102_forward`, `C102_accounted`, `C102_drains`, `C102_lossless`, `C102_failed_false`, `C98_meta_partial`, `C98_mixed_false`, `C98_empty_false`, `C99_meta_complete`, `C104_requests`, `C104_instant`, `C104_range`, `C104_empty_false`, `C104_evaluated`, `C104_values`, `C105_raw`, `C105_unchecked_false`, `C107_expected_partial`, `C107_value`, `C107_short_false`, `C107_query`, `C107_window_false`, `C108_published_partial`, `C108_disabled_false`, `C109_emissions`, `C109_attempts_partial`, `C109_silent_false`, `C109_missing_false`, `C106_meaning`, `C106_field`, `C106_info`, `C106_read`, `C106_escape_false`, `C110_segments`, `C110_frames`, `C110_cut`, `C110_steady`, `C110_stream`, `C110_after_error_false`, `C110_long_false`, `C110_slow_false`, `C111_parse`, `C111_logs`, `C111_crash_false`, `C111_limits`, `C112_run`, `C112_end_false`, `C113_format`, `C113_meta_format`, `C113_read`, `C113_meta`, `C113_document`, `C114_unknown`, `C114_order`, `C114_names`, `C114_null`, `C114_meta_unknown`, `C114_meta_order`, `C114_meta`, `C115_send`, `C115_read_answer`, `C115_read_request`, `C115_meta`, `C115_ranges`, `C115_promql_request`, `C115_promql_answer`, `C115_varint`, `C115_bytes_read_request`, `C115_bytes_envelope`, `C115_bytes_envelopes`, `C115_bytes_meta`, `C115_bytes_ranges`, `C115_bytes_promql`, `C116_unknown`, `C117_values`, `C117_starts`, `C117_required`, `C117_duration`, `C117_node_defaults`, `C117_scheduler_defaults`, `C117_gateway_defaults`, `C117_proxy_defaults`, `C117_nozzle`, `C117_syslog`, `C117_blackbox`, `C118_refused_partial`, `C118_switch_false`, `C118_comma_false`, `C118_alone`, `C118_default_false`, `C119_works_partial`, `C119_count_false`, `C119_interval_false`, `C119_tokens_false`, `C119_blackbox_false`, `C119_capacity_false`, `C120_url_partial`, `C120_name_partial`, `C120_port_false`, `C120_ip_false`, `C121_lands_partial`, `C121_outside_false`, `C121_single_false`, `C121_swapped_false`, `C123_published`, `C123_withdrawn_partial`, `C123_undisturbed_partial`, `C123_race_false`, `C123_lost_false`, `C123_forever_false`, `C124_bound_partial`, `C124_slow_false`, `C124_overtaken_false`, `C125_age_partial`, `C125_listed_partial`, `C125_two_periods_false`, `C125_hidden_false`, `C126_read_partial`, `C126_equal_times_false`, `C126_colon_false`, `C126_stranger_false`, `C126_spread_partial`, `C127_large`, `C127_bound_partial`, `C127_large_false`, `C128_bound_partial`, `C128_sizes_partial`, `C128_batch_false`, `C128_forward_false`, `C129_spread_partial`, `C129_owner_partial`, `C129_own_node`, `C129_elsewhere_false`, `C130_peer`, `C130_blackbox`, `C130_missing`, `C130_skip_false`, `C131_caller_partial`, `C131_repaired_partial`, `C131_proxy`, `C131_anyone_false`, `C131_syslog`, `C132_seen`, `C132_read`, `C132_promql`, `C132_malformed_false`, `C133_instant_partial`, `C133_whole_second`, `C133_reader`, `C133_now_false`, `C134_range_partial`, `C134_like_instant`, `C134_nothing_like_instant`, `C134_future_false`, `C134_zero_step_false`, `C134_short_step`, `C135_number`, `C135_apart`, `C135_spread`, `C135_share`, `C135_collision`, `C136_delivered_partial`, `C136_counts_partial`, `C136_lost_false`, `C136_spread_partial`, `C136_counts_spread_partial`, `C137_range_partial`, `C137_function_partial`, `C137_end_false`, `C138_instant_partial`, `C138_now_false`, `C138_range_partial`, `C138_unreadable`, `C139_read`, `C139_instant`, `C139_range`, `C140_own_copies`, `C140_stored_partial`, `C140_elsewhere_partial`, `C140_false`, `C141_false`, `C141_alone_partial`, `C141_history_partial`, `C141_reports_partial`, `C142_meta`, `C142_path`, `C142_refused`, `C142_one`, `C142_unset_false`, `C143_stuck`, `C143_retries_forever`, `C143_query_gets_nothing`, `C143_walk_partial`, `C143_walk_false`, `C144_shared_partial`, `C144_growing_partial`, `C144_short_false`, `C146_ends`, `C146_default`, `C147_apart_partial`, `C147_crash_partial`, `C147_alone`, `C147_crash_false`, `C147_deaf_false`, `C148_gateway_partial`, `C148_no_route`, `C148_forwarded`, `C148_blame_false`, `C148_proxy`, `C148_outage_false`, `C148_query_false`, `C148_query_passed`, `C149_query_partial`, `C149_read_from`, `C149_comma_false`, `C149_outage_false`, `C149_read_false`, `C150_client`, `C150_client_refused`, `C150_read`, `C150_user`, `C150_refused`, `C150_format_partial`, `C150_empty_false`, `C150_zero_false`, `C150_gateway_false`, `C151_metrics`, `C151_gauge_exact`, `C151_other_data`, `C151_tags_false`, `C151_event_false`, `C152_options`, `C152_command`, `C152_clustered`, `C152_forwards_none`, `C152_kept`, `C152_standalone_false`, `C152_stores_all_partial`, `C153_walk_reads`, `C153_scheduler`, `C153_tasks`, `C153_scheduler_command`, `C153_senders`, `C153_gateway`, `C153_gateway_read`, `C153_gateway_unversioned`, `C153_gateway_command`, `C153_capi`, `C154_accounts`, `C154_survivor_partial`, `C154_restarted_partial`, `C154_who_answers`, `C154_hidden_false`, `C154_acknowledged_false`, `C155_tables`, `C155_owners_partial`, `C155_any_state`, `C155_absent_false`, `C155_unreached_false`, `C156_recovers_partial`, `C156_round_partial`, `C156_pruned_partial`, `C157_reader`, `C157_instant_partial`, `C157_range_partial`, `C157_any_node`, `C158_instant_partial`, `C158_range_partial`, `C158_refused`, `C158_stranger`, `C158_bad`, `C159_user`, `C159_one_login`, `C159_client_partial`, `C159_colon_false`, `C159_answer`, `C159_sent`, `C159_refused`, `C159_empty_false`, `C160_page`, `C160_page_only`, `C160_listing`, `C160_ids_only`, `C160_keys`, `C160_keys_only`, `C160_token`, `C160_access`, `C160_admin_only`, `C160_read`, `C160_forever_false`, `C161_client_partial`, `C161_auth_partial`, `C161_prefix_false`, `C161_port_false`, `C161_slash_false`, `C162_connection`, `C163_crash`, `C164_page`, `C164_walk_partial`, `C164_stuck`, `C164_answered`, `C164_walk_false`, `C165_user_partial`, `C165_fits`, `C165_large`, `C165_stranger`, `C165_user_false`, `C166_through`, `C166_age`, `C166_listed`, `C167_only`, `C167_any`, `C167_recovers_partial`, `C167_pages_partial`, `C167_acknowledged_false`, `C168_only`, `C168_recovers_partial`, `C168_pruned_partial`, `C168_moved_false`, `C169_gateway_instant_partial`, `C169_gateway_range_partial`, `C169_instant_partial`, `C169_range_partial`, `C169_covers`, `C169_recovers_partial`, `C169_recovers_range_partial`, `C169_recovers_user_partial`, `C170_batch_partial`, `C170_once_partial`, `C170_covers`, `C170_recovers_partial`, `C170_answered_partial`, `C170_all_partial`, `C170_recovered_covers`, `C170_twice_false`

* **Quot.sound, propext** (65): `C02_read_total`, `C24_rejected_iff`, `C24_defaults`, `C29_lookupAll`, `C30_wrap_false`, `C34_read_owner`, `C34_read_any_owner`, `C36_terminates_partial`, `C38_cached_fresh`, `C39_range_list`, `C40_snapshot_partial`, `C40_removed`, `C43_order`, `C44_window`, `C48_requests`, `C53_valid`, `C53_identity`, `C53_idempotent`, `C55_timer_partial`, `C61_read`, `C67_complete`, `C67_host`, `C67_ids`, `C69_concurrent_false`, `C71_flush`, `C71_drop_false`, `C93_crash_partial`, `C81_crash_iff`, `C81_no_crash_partial`, `C46_groups_partial`, `C46_follow_partial`, `C49_call`, `C85_default_end_false`, `C56_seek`, `C59_gauge_partial`, `C50_sequential`, `C51_version`, `C73_ipv6_false`, `C103_one_writer_partial`, `C103_in_turn_partial`, `C103_lost_false`, `C103_stall_false`, `C110_within`, `C110_empty_false`, `C112_period`, `C116_merge`, `C122_leader_partial`, `C122_bodies_false`, `C124_asked`, `C125_own_store`, `C131_gateway`, `C132_line`, `C134_steps`, `C134_negative_step_false`, `C144_over`, `C145_window_partial`, `C145_window_false`, `C146_retry_partial`, `C146_retry_false`, `C153_client`, `C153_meta`, `C162_stop`, `C162_failed`, `C162_serving_false`, `C163_answered`

* **propext** (23): `C17_read_pure`, `C18_no_filter`, `C31_invalid`, `C40_snapshot_false`, `C53_pointwise`, `C67_related`, `C69_throttle_partial`, `C90_any`, `C81_no_crash_false`, `C73_source`, `C107_expected_false`, `C145_walk`, `C153_walk`, `C153_zero_start`, `C153_window`, `C153_epoch`, `C153_auth_command`, `C153_proxy`, `C153_proxy_command`, `C155_follower`, `C159_options`, `C162_early_stop_false`, `C164_asked`

