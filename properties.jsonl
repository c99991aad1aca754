{"id": "C01", "title": "Per-source capacity is never exceeded", "statement": "After any sequence of Put and pruning operations, no source ever holds more than maxPerSource envelopes (maxPerSource >= 1).", "quantifier": "every configuration with maxPerSource >= 1, every sequence of Puts (any sources, any timestamps, duplicates included) and prunes of any size, every intermediate state", "why_tests_cant": "An invariant over unbounded histories; tests fill one source a few times.", "anchors": ["internal/cache/store/store.go: insertOrSwap, Put, truncate"]}
{"id": "C02", "title": "Reads return only stored envelopes that match the request", "statement": "Every envelope returned by a read of a source was put under that source, has start <= timestamp < end, has one of the requested types (when types are requested) and satisfies the name filter; no stored entry is returned twice and entries come in storage order (ascending, or its reverse for descending).", "quantifier": "every reachable store, every source id, window, type list, name filter, limit and direction, including windows with start >= end", "why_tests_cant": "The traversal prunes subtrees by timestamp while the tree is ordered by a shifted key; soundness must hold for every tree shape.", "anchors": ["internal/cache/store/store.go: Get, treeAscTraverse, treeDescTraverse, filterByName, validEnvelopeType"]}
{"id": "C03", "title": "Ascending reads are complete: the oldest matching envelopes, oldest first", "statement": "An ascending read with limit n>=1 returns exactly the n oldest envelopes of the source in [start,end) that match the filters, ordered by timestamp (all of them if fewer than n). FALSE in general when equal timestamps occur (counterexample proved); proved whenever all stored timestamps of the source are distinct, and up to limit overshoot whenever timestamps are monotone in storage order.", "quantifier": "every reachable store, every window, filter and limit", "why_tests_cant": "Depends on tree shape produced by arbitrary insertion/removal histories.", "anchors": ["internal/cache/store/store.go: Get, treeAscTraverse, isNodeAFudgeSequenceMember"]}
{"id": "C04", "title": "Descending reads are complete: the newest matching envelopes, newest first", "statement": "A descending read with limit n>=1 returns exactly the n newest envelopes of the source in [start,end) that match the filters, ordered newest first. FALSE in general with equal timestamps; proved for distinct timestamps and (up to overshoot) monotone stores.", "quantifier": "every reachable store, every window, filter and limit", "why_tests_cant": "Depends on tree shape produced by arbitrary insertion/removal histories.", "anchors": ["internal/cache/store/store.go: Get, treeDescTraverse, isNodeAFudgeSequenceMember"]}
{"id": "C05", "title": "A read never returns more than limit envelopes beyond a group of equal timestamps", "statement": "A read may exceed its limit only to avoid breaking up a group of envelopes with the same timestamp. FALSE: after the group the traversal also appends the next envelope (counterexample proved). With distinct timestamps the limit is exact; with any timestamps the answer exceeds it by at most twice the number of entries that were moved off their own timestamp because it was taken.", "quantifier": "every reachable store and every read request", "why_tests_cant": "Overshoot depends on how the group sits in the tree.", "anchors": ["internal/cache/store/store.go: Get, treeAscTraverse, isNodeAFudgeSequenceMember"]}
{"id": "C06", "title": "A limited read never splits a group of equal timestamps", "statement": "If an ascending read that stops at its limit returns an envelope with timestamp t it returns every matching envelope with timestamp t, so a client can resume at t+1. FALSE: three envelopes with one timestamp and limit 1 already split (counterexample proved).", "quantifier": "every reachable store and every read request", "why_tests_cant": "The code looks at a direct tree child instead of the in-order successor, so the outcome depends on tree balance.", "anchors": ["internal/cache/store/store.go: isNodeAFudgeSequenceMember, treeAscTraverse", "pkg/client/walk.go: Walk"]}
{"id": "C07", "title": "A Put never destroys another envelope except by the documented capacity eviction", "statement": "Putting an envelope into a source below capacity keeps every previously stored envelope of that source and adds the new one, for any timestamp, including ones already present. FALSE once 4001 consecutive keys from that timestamp are occupied (counterexample proved); proved while at least one of those keys is free.", "quantifier": "every store, source and envelope", "why_tests_cant": "Needs thousands of colliding timestamps in one source; universally quantified over occupancy patterns.", "anchors": ["internal/cache/store/store.go: insertOrSwap"]}
{"id": "C08", "title": "Capacity eviction removes only the oldest entry", "statement": "When a source is at capacity, a Put removes exactly the entry that is first in storage order and adds the new envelope; all other entries stay. FALSE for every capacity from 4002 on: when all 4001 keys from the new timestamp are taken, a second envelope, not the oldest, is destroyed too (counterexample proved for every such capacity). Proved for every capacity up to 4001, and for larger ones while one of those keys is free.", "quantifier": "every store at capacity, every envelope including ones older than everything stored", "why_tests_cant": "Must hold for all tree shapes and all keys.", "anchors": ["internal/cache/store/store.go: insertOrSwap"]}
{"id": "C09", "title": "Meta describes the stored contents", "statement": "For every source Meta lists: Count equals the number of stored envelopes, OldestTimestamp is the smallest storage key, which is at most 4000 above the timestamp of the first stored envelope and equals it when timestamps are distinct; NewestTimestamp is at least every stored timestamp. Meta lists exactly the sources that hold envelopes.", "quantifier": "every history of Puts and prunes", "why_tests_cant": "Invariant over unbounded histories.", "anchors": ["internal/cache/store/store.go: Meta, insertOrSwap, removeOldestEnvelope"]}
{"id": "C10", "title": "Expired counts account for every envelope that left a source", "statement": "For every listed source: Count + Expired = number of envelopes put under that source since the source (re)appeared, provided no key collision overwrote an entry.", "quantifier": "every history of Puts and prunes", "why_tests_cant": "Conservation law over unbounded histories.", "anchors": ["internal/cache/store/store.go: insertOrSwap, removeOldestEnvelope, Meta"]}
{"id": "C11", "title": "Sources are isolated", "statement": "A Put under one source never changes what any read or Meta entry reports for any other source.", "quantifier": "every store, every pair of distinct source ids, every envelope", "why_tests_cant": "Universally quantified over states and requests.", "anchors": ["internal/cache/store/store.go: Put, Get, Meta"]}
{"id": "C12", "title": "Pruning removes exactly the globally oldest envelopes", "statement": "A prune of n envelopes removes exactly min(n,total) envelopes; within each source the removed ones are the first in storage order; and no removed key is larger than any retained key of any source.", "quantifier": "every store (any number of sources, sizes and timestamps), every n, every map iteration order", "why_tests_cant": "A heap-driven loop over arbitrary many trees.", "anchors": ["internal/cache/store/store.go: truncate, BuildExpirationHeap, removeOldestEnvelope, ExpirationHeap"]}
{"id": "C13", "title": "Pruning never crashes the server, whatever quantity is requested", "statement": "A prune terminates without panic for every quantity. FALSE after key collisions overwrote envelopes, because the internal count then exceeds the number of stored envelopes (counterexample proved); proved whenever the count is accurate.", "quantifier": "every reachable store and every quantity returned by the memory consultant", "why_tests_cant": "The failing history needs more than 4000 equal timestamps.", "anchors": ["internal/cache/store/store.go: truncate, insertOrSwap"]}
{"id": "C14", "title": "Emptied sources disappear and restart cleanly", "statement": "A source whose last envelope is pruned is no longer listed by Meta and reads of it return nothing; a later Put makes it reappear with Count 1 and Expired 0.", "quantifier": "every store, every prune", "why_tests_cant": "Invariant over histories.", "anchors": ["internal/cache/store/store.go: removeOldestEnvelope, Meta, Get, getOrInitializeStorage"]}
{"id": "C15", "title": "The store-size gauge equals the number of stored envelopes", "statement": "The reported store size equals the total number of envelopes stored over all sources. FALSE after a collision overwrite (proved: it drifts upwards); proved to be never too small, and exact for histories without overwrites.", "quantifier": "every history of Puts and prunes", "why_tests_cant": "Conservation over unbounded histories.", "anchors": ["internal/cache/store/store.go: insertOrSwap, removeOldestEnvelope, setStoreSize"]}
{"id": "C16", "title": "The cache-period gauge reflects the oldest envelope after a prune", "statement": "After a prune the reported cache period is now minus the oldest remaining storage key. FALSE with two sources (counterexample proved: the last heap slot is used instead of the minimum); proved with exactly one remaining source, and in general the reported value is some source's oldest key.", "quantifier": "every store and prune", "why_tests_cant": "Needs a specific heap layout.", "anchors": ["internal/cache/store/store.go: truncate, ExpirationHeap.Pop"]}
{"id": "C17", "title": "Reads have no side effects on stored data", "statement": "Get and Meta change nothing that any later read, Meta or prune can observe (only the egress counter grows, by the number of envelopes returned).", "quantifier": "every store and request", "why_tests_cant": "Universal over all later observations.", "anchors": ["internal/cache/store/store.go: Get, Meta"]}
{"id": "C18", "title": "Name filters select exactly the named metrics", "statement": "With a name filter, counters and timers are returned iff their name matches, gauges are returned iff some metric matches and then with exactly the matching metrics and all other fields unchanged, logs and events are never returned; without one, envelopes are returned unchanged.", "quantifier": "every envelope and every regular expression (as a predicate)", "why_tests_cant": "Universal over envelopes and predicates.", "anchors": ["internal/cache/store/store.go: filterByName"]}
{"id": "C19", "title": "The prune quantity is proportionate", "statement": "The quantity to prune is 0 when heap usage is at or below the configured percentage, otherwise it is floor(count*(h-p)/h), hence between 0 and count, and monotone in the heap usage; computing it in float64 changes it by at most one envelope.", "quantifier": "every count, heap size, total and percentage, in exact arithmetic and in float64", "why_tests_cant": "Universal arithmetic statement.", "anchors": ["internal/cache/store/prune_consultant.go: GetQuantityToPrune", "internal/cache/memory_analyzer.go: Memory"]}
{"id": "C20", "title": "Concurrent Puts and reads are linearizable", "statement": "For any number of concurrent Puts and reads, under every interleaving of their lock-protected steps, each call takes effect at one moment between its invocation and its return; the stored envelopes and the count, expiry, size and egress metrics are those the sequential store produces for the calls in that order, and every read answers as the sequential store does at that point.", "quantifier": "every schedule of any number of Put, Get and Meta calls, without pruning (call histories: with pruning too)", "why_tests_cant": "All interleavings of unboundedly many threads.", "anchors": ["internal/cache/store/store.go: getOrInitializeStorage, insertOrSwap, Get"]}
{"id": "C21", "title": "Concurrent calls and prunes never crash the server", "statement": "No interleaving of Puts, Gets and Metas with the prune loop panics. FALSE (counterexamples proved: a prune that starts between the creation of a new source's storage and its first insert dereferences a nil node; Puts into dropped storages leak the count until a prune empties its heap). Proved: no crash when no prune removes envelopes while a Put or Meta is in flight and Puts are not crowded; the exact causes of every crash.", "quantifier": "every schedule of Puts, Gets, Metas and prunes", "why_tests_cant": "Timing dependent.", "anchors": ["internal/cache/store/store.go: BuildExpirationHeap, getOrInitializeStorage, truncate"]}
{"id": "C22", "title": "An acknowledged Put is readable", "statement": "A Put returns only after it has taken effect, and from then on its envelope is stored where reads look until further Puts to the source or a running prune can remove it. FALSE when a prune drops the source between the Put's lookup and its insert (counterexample proved); proved for every schedule in which the source was not dropped since the Put was made.", "quantifier": "every schedule of Puts, reads and prunes", "why_tests_cant": "Timing dependent.", "anchors": ["internal/cache/store/store.go: Put, removeOldestEnvelope"]}
{"id": "C23", "title": "Meta never crashes the server", "statement": "No interleaving of Meta with Puts and prunes panics. FALSE (counterexample proved: a source removed between the two passes of Meta makes the type assertion fail); proved for every schedule in which no source is dropped while the Meta is in flight.", "quantifier": "every schedule of Meta, Puts and prunes", "why_tests_cant": "Timing dependent.", "anchors": ["internal/cache/store/store.go: Meta, removeOldestEnvelope"]}
{"id": "C94", "title": "The store size is the number of readable envelopes under concurrency", "statement": "Under every schedule the store's envelope count is the number of envelopes reads can reach. FALSE (counterexample proved: a Put that inserts into a dropped storage is counted for ever); proved for every schedule without such Puts and without crowded Puts.", "quantifier": "every schedule of Puts, Gets, Metas and prunes", "why_tests_cant": "Timing dependent.", "anchors": ["internal/cache/store/store.go: insertOrSwap, removeOldestEnvelope, truncate"]}
{"id": "C95", "title": "The cache period is that of the oldest envelope under concurrency", "statement": "When all Puts have returned, the oldest timestamp behind the cache-period metric is one some sequential order produces. FALSE (counterexample proved: two Puts load the old value, then the newer one stores last).", "quantifier": "every schedule of Puts", "why_tests_cant": "Timing dependent.", "anchors": ["internal/cache/store/store.go: insertOrSwap"]}
{"id": "C24", "title": "Read requests are validated and defaulted", "statement": "A read fails exactly when (end != 0 and start > end) or limit > 1000 or limit < 0 or the name filter is not a valid expression; otherwise limit 0 means 100 and end 0 means now.", "quantifier": "every read request and clock value", "why_tests_cant": "Universal over requests.", "anchors": ["internal/routing/local_store_reader.go: Read"]}
{"id": "C25", "title": "Envelope type ANY", "statement": "Requesting no types or only ANY returns all types; ANY next to other types is ignored (documented surprise: [ANY, LOG] returns logs only).", "quantifier": "every list of requested types", "why_tests_cant": "Universal over lists.", "anchors": ["internal/routing/local_store_reader.go: Read", "internal/cache/store/store.go: validEnvelopeType, checkEnvelopeType"]}
{"id": "C26", "title": "End to end Read contract over Put histories", "statement": "For any history of Puts with distinct timestamps per source and prunes, an accepted Read for known envelope types returns exactly the specified window of the abstract per-source log that keeps the entries left after evicting the oldest at capacity and pruning oldest first.", "quantifier": "every such history and every valid request", "why_tests_cant": "Refinement over unbounded histories.", "anchors": ["internal/routing/local_store_reader.go: Read", "internal/cache/store/store.go: Put, Get, truncate"]}
{"id": "C27", "title": "Routing lookup is exact", "statement": "After a SetRanges whose addresses are all configured nodes (distinct addresses), Lookup of a source id returns the index of a node once for every one of its ranges that contains the id's hash, both bounds inclusive, and nothing else.", "quantifier": "every range assignment and every hash value", "why_tests_cant": "Universal over tables and 64-bit hashes.", "anchors": ["internal/routing/routing_table.go: Lookup, SetRanges, NewRoutingTable"]}
{"id": "C28", "title": "Routing tables are replaced wholesale and independent of map order", "statement": "After SetRanges the result of every Lookup depends only on the last request, not on earlier tables, and not on the iteration order of the request map nor on how the unstable sort breaks ties.", "quantifier": "every sequence of SetRanges calls, every permutation of the table consistent with the comparison", "why_tests_cant": "Quantifies over all orders of map iteration and sorting.", "anchors": ["internal/routing/routing_table.go: SetRanges, rangeInfos.Less"]}
{"id": "C29", "title": "Lookup and LookupAll agree", "statement": "LookupAll returns the same list as Lookup for every source id.", "quantifier": "every table and source id", "why_tests_cant": "Universal.", "anchors": ["internal/routing/routing_table.go: Lookup, LookupAll, findRange"]}
{"id": "C30", "title": "Scheduler ranges partition the hash space", "statement": "For 1 <= count <= 2^32 the ranges handed out by the scheduler cover every 64-bit hash exactly once; for count = 2^32+1 this is FALSE (proved: 64-bit wrap-around).", "quantifier": "every count and every 64-bit hash", "why_tests_cant": "2^32 configurations times 2^64 hashes.", "anchors": ["internal/scheduler/scheduler.go: Start"]}
{"id": "C31", "title": "Static lookup is total, in range, monotone and balanced", "statement": "For n >= 1 static routes every hash maps to an index below n, larger hashes never map to smaller indexes, and every index except the last receives exactly floor((2^64-1)/n) hashes.", "quantifier": "every n and every 64-bit hash", "why_tests_cant": "2^64 inputs.", "anchors": ["internal/routing/static_lookup.go: NewStaticLookup, Lookup"]}
{"id": "C32", "title": "Ingress delivers each envelope exactly to its owners, in order", "statement": "A non-local Send hands every node exactly the subsequence of envelopes whose lookup contains that node (once per occurrence), in request order, marked local-only; failures at one node do not affect others and the call succeeds; envelopes without owner are dropped.", "quantifier": "every request, routing table and pattern of node failures", "why_tests_cant": "Universal over batches and tables.", "anchors": ["internal/routing/ingress_reverse_proxy.go: Send"]}
{"id": "C33", "title": "Forwarding happens at most once", "statement": "A local-only Send is delivered in full to the local store and never forwarded, so no envelope crosses more than one node boundary whatever tables the nodes hold.", "quantifier": "every cluster, tables may disagree", "why_tests_cant": "Universal over cluster configurations.", "anchors": ["internal/routing/ingress_reverse_proxy.go: Send", "internal/routing/batched_ingress_client.go: write"]}
{"id": "C34", "title": "Reads are served by an owner, preferably locally", "statement": "A Read is answered by a node whose range contains the source id's hash; by the local node if it is one; with Unavailable iff there is none.", "quantifier": "every table and every random choice", "why_tests_cant": "Universal.", "anchors": ["internal/routing/egress_reverse_proxy.go: Read"]}
{"id": "C35", "title": "Cluster read-your-writes", "statement": "If all nodes hold the same routing table, clients use plain Sends, nothing sent between nodes is lost and all of it has arrived, then every owner of a source stores exactly what clients sent for it to any node, within its capacity and with at most 4001 envelopes of the source within 4 microseconds of any one, and no other node stores any of it. With distinct timestamps a Read sent to any node is answered after at most one hop with the requested part of all that was sent, in timestamp order.", "quantifier": "every cluster size, table, entry node and random choice", "why_tests_cant": "Universal over clusters.", "anchors": ["internal/routing/ingress_reverse_proxy.go: Send", "internal/routing/egress_reverse_proxy.go: Read"]}
{"id": "C36", "title": "Read forwarding terminates", "statement": "A Read is forwarded only finitely often. FALSE when tables disagree (counterexample proved: two nodes that name each other forward forever); proved for agreeing tables, and for tables that name only nodes which own the id by their own table (at most one hop). In general a Read can be passed on for ever exactly if it can come back to a node it has been at, and otherwise ends after fewer hops than there are nodes.", "quantifier": "every cluster configuration", "why_tests_cant": "Non-termination is not testable.", "anchors": ["internal/routing/egress_reverse_proxy.go: Read"]}
{"id": "C37", "title": "Cluster Meta merges all reachable nodes", "statement": "A non-local Meta lists exactly the sources listed by some reachable node, with the entry of the last such node; it fails iff no node is reachable.", "quantifier": "every pattern of node failures and node metas", "why_tests_cant": "Universal.", "anchors": ["internal/routing/egress_reverse_proxy.go: Meta, remoteMeta"]}
{"id": "C38", "title": "Meta responses are at most one cache period old", "statement": "Every successful Meta answer equals a fetch made at most metaCacheDuration earlier (or now); failed fetches are never cached; local and remote answers are cached apart.", "quantifier": "every sequence of calls at every times", "why_tests_cant": "History property over all call times.", "anchors": ["internal/routing/egress_reverse_proxy.go: Meta, localMeta, remoteMeta"]}
{"id": "C39", "title": "Orchestrator range list", "statement": "AddRange adds one copy, RemoveRange removes exactly one copy (the first) of an equal range and nothing if absent, ListRanges reports all in order.", "quantifier": "every history of calls", "why_tests_cant": "History property.", "anchors": ["internal/routing/orchestrator.go: AddRange, RemoveRange, ListRanges"]}
{"id": "C40", "title": "ListRanges answers are snapshots", "statement": "The list returned by ListRanges does not change by later calls. FALSE (counterexample proved: RemoveRange shifts the shared backing array in place); proved while only AddRange and ListRanges follow.", "quantifier": "every history of calls", "why_tests_cant": "Aliasing shows only when a response is still in use.", "anchors": ["internal/routing/orchestrator.go: RemoveRange, ListRanges"]}
{"id": "C41", "title": "Only the leader changes assignments", "statement": "Add and Remove send nothing to any node while the scheduler is not leader; as leader each sends exactly one request to the addressed worker.", "quantifier": "every worker, range and leadership state", "why_tests_cant": "Universal.", "anchors": ["internal/scheduler/scheduler.go: comm.Add, comm.Remove"]}
{"id": "C43", "title": "Walk delivers each envelope at most once, in order", "statement": "If every read respects its start time and is sorted, the envelopes passed to the visitor over the whole walk are sorted by timestamp, and batches are strictly separated, so nothing is delivered twice.", "quantifier": "every (possibly failing) reader, clock, option set and visitor", "why_tests_cant": "Unbounded interaction histories.", "anchors": ["pkg/client/walk.go: Walk"]}
{"id": "C44", "title": "Walk stays inside its window", "statement": "No delivered envelope is older than the start time or at/after the end time (if set), nor newer than now minus the delay, except when an end time is set and a read since the last delivery came back empty.", "quantifier": "every sorted, start-respecting reader, clock and option set", "why_tests_cant": "Unbounded interaction histories.", "anchors": ["pkg/client/walk.go: Walk"]}
{"id": "C45", "title": "Walk is complete on a static log", "statement": "Walking a fixed log with an end time through reads that return whole timestamp groups delivers exactly the envelopes of [start,end). Combined with the real store this is FALSE for split groups (counterexample proved) and proved for distinct timestamps.", "quantifier": "every log, window and limit >= 1", "why_tests_cant": "Unbounded number of pages.", "anchors": ["pkg/client/walk.go: Walk", "internal/cache/store/store.go: Get"]}
{"id": "C47", "title": "Retry back-off gives up after its limit", "statement": "With RetryBackoff(n) a walk stops at the n-th consecutive failed or empty read and any delivered batch restores the full allowance.", "quantifier": "every sequence of successes and failures, every n", "why_tests_cant": "Unbounded sequences.", "anchors": ["pkg/client/walk.go: RetryBackoff, Walk"]}
{"id": "C48", "title": "Query errors are not silently turned into partial data", "statement": "If a data read for a query fails before the window is exhausted the caller gets an error. FALSE (counterexample proved: after the retries are used up the partial data is returned as success); proved when the context has expired.", "quantifier": "every failure pattern", "why_tests_cant": "Needs failure injection over all patterns.", "anchors": ["internal/promql/data_reader/walking_data_reader.go: Read"]}
{"id": "C53", "title": "Sanitized metric names are valid and stable", "statement": "SanitizeMetricName yields only letters, digits and underscore with no leading digit, keeps the length, is the identity on valid names and is idempotent.", "quantifier": "every string", "why_tests_cant": "Universal over strings.", "anchors": ["internal/promql/promql.go: SanitizeMetricName"]}
{"id": "C54", "title": "Different label sets are different series", "statement": "Points are grouped into one series iff their labels are equal. FALSE (counterexample proved: labels {a:'b-c-d'} and {a:'b',c:'d'} collide); proved when no label name contains '-' and no label value contains a label name as a dash-delimited segment.", "quantifier": "every pair of label sets", "why_tests_cant": "Universal over strings.", "anchors": ["internal/promql/promql.go: getSeriesID, seriesSetBuilder.add"]}
{"id": "C55", "title": "Query selectors honour their label matchers", "statement": "A selector returns exactly the points whose labels satisfy its matchers. FALSE for !=, =~ and !~ on ordinary labels (counterexample proved: all are treated as equality) and for instance_id (counterexample proved: the label is not looked up among the point's tags); proved for selectors that use non-empty equality on labels other than instance_id. The value of a point is the total of a counter, the value of a gauge, or how long a timer took; FALSE for a timer of more than 292 years (proved: the 64 bit difference wraps).", "quantifier": "every selector and every data set", "why_tests_cant": "Universal.", "anchors": ["internal/promql/promql.go: Select, hasLabels"]}
{"id": "C57", "title": "The authorization check sees every source a query reads", "statement": "The set of source ids extracted from a query for authorization equals the set of source ids its execution reads.", "quantifier": "every query tree", "why_tests_cant": "Universal over queries.", "anchors": ["internal/promql/promql.go: ExtractSourceIds, Select, addSourceIDs"]}
{"id": "C61", "title": "Read access control", "statement": "GET /api/v1/read/<id> is forwarded iff a token is present, it is valid, and the caller is admin or authorized for <id>; otherwise 404 and nothing is forwarded.", "quantifier": "every request and every behaviour of UAA and CAPI", "why_tests_cant": "Universal.", "anchors": ["internal/auth/cf_auth_middleware.go"]}
{"id": "C62", "title": "Query access control is not bypassable", "statement": "If a non-admin query is forwarded, every source id read by executing the forwarded query is one the caller is authorized for (authorized ids free of '|').", "quantifier": "every query, every authorization relation, every related-source map", "why_tests_cant": "Security property over all queries.", "anchors": ["internal/auth/cf_auth_middleware.go", "internal/promql/promql.go: ReplaceSourceIdSets, ExtractSourceIds, Select"]}
{"id": "C63", "title": "Meta access control", "statement": "A non-admin Meta answer contains exactly the entries of log-cache's answer whose source id is available to the caller; an admin gets all.", "quantifier": "every meta and availability list", "why_tests_cant": "Universal.", "anchors": ["internal/auth/cf_auth_middleware.go"]}
{"id": "C64", "title": "Cached authorizations are fresh and per token", "statement": "IsAuthorized answers true only if CAPI listed that source for that very token at most one cache interval before.", "quantifier": "every history of requests for all tokens, CAPI answers and times", "why_tests_cant": "History property.", "anchors": ["internal/auth/capi_client.go: IsAuthorized, AvailableSourceIDs"]}
{"id": "C65", "title": "CAPI is not hammered", "statement": "For one token, of any five successive CAPI fetches caused by IsAuthorized the last starts at least one cache interval after the first ended. Proved for calls made one after the other; FALSE for concurrent calls (counterexample proved: n concurrent calls make n fetches, for every n).", "quantifier": "every history", "why_tests_cant": "History property.", "anchors": ["internal/auth/capi_client.go: IsAuthorized"]}
{"id": "C66", "title": "Pruning the token cache is invisible", "statement": "Pruning expired tokens never changes any later IsAuthorized decision or the requests made. Proved when calls and prune rounds do not overlap; FALSE when they do (counterexample proved: the prune loop deletes a list that has just been refreshed).", "quantifier": "every state, time and future", "why_tests_cant": "Universal over futures.", "anchors": ["internal/auth/capi_client.go: pruneTokens"]}
{"id": "C67", "title": "CAPI listings are complete or rejected and tokens stay on the CAPI host", "statement": "A paginated listing returns the concatenation of all pages or an error, never a partial list; and every page request, which carries the user's token, goes to the configured CAPI host whatever next-links the server returns.", "quantifier": "every chain of pages, any next-link", "why_tests_cant": "Unbounded pagination.", "anchors": ["internal/auth/capi_client.go: doPaginatedResourceRequest, doResourceRequest"]}
{"id": "C68", "title": "Token keys follow UAA", "statement": "After a successful refresh the accepted signing keys are exactly those UAA listed; after a refresh that fails on some key, previously accepted keys are still accepted.", "quantifier": "every key listing and prior state", "why_tests_cant": "Universal.", "anchors": ["internal/auth/uaa_client.go: RefreshTokenKeys"]}
{"id": "C69", "title": "UAA refreshes are throttled", "statement": "Two fetches of the token keys are at least the minimum interval apart. Proved for sequential calls; FALSE for concurrent callers (counterexample proved: the compare-and-swap result is ignored).", "quantifier": "every history and schedule", "why_tests_cant": "Timing dependent.", "anchors": ["internal/auth/uaa_client.go: RefreshTokenKeys"]}
{"id": "C70", "title": "Tokens are accepted only with a valid known signature", "statement": "Read succeeds only for an RS256 token whose key id is in the current key set, whose signature verifies with that key and which is not expired; the caller is admin iff the scopes contain doppler.firehose or logs.admin.", "quantifier": "every token and key state", "why_tests_cant": "Universal.", "anchors": ["internal/auth/uaa_client.go: Read, loadOrFetchPublicKey"]}
{"id": "C71", "title": "Nozzle batches are bounded, ordered and lossless up to visible drops", "statement": "Every batch has between 1 and 512 envelopes; every received envelope is in exactly one place (overwritten in the stream buffer, dropped, queued, in flight, delivered, failed or still buffered); the batches and the buffered rest, one after another, are a subsequence of the received stream (the whole stream if the stream buffer lost nothing); a batch is dropped only while 512 batches wait; ingress counts received and egress delivered envelopes, never more than there are and exactly when nothing is about to be counted; egress is never ahead of ingress; and the metrics account for every loss. The last two parts are FALSE (counterexamples proved: an envelope can be delivered and counted as delivered before it is counted as received; a batch dropped because the queue is full is neither counted nor logged).", "quantifier": "every schedule of arrivals, overwritten buffer slots, timer ticks, workers and failing sends", "why_tests_cant": "All schedules.", "anchors": ["internal/nozzle/nozzle.go: envelopeBatcher, envelopeReader, envelopeWriter"]}
{"id": "C72", "title": "The nozzle subscribes to the configured envelope kinds", "statement": "The subscription names exactly the configured kinds, in order, and a name that is no kind is rejected. The last part is FALSE (counterexample proved: it becomes a nil selector in the request).", "quantifier": "every selector configuration", "why_tests_cant": "Universal over configurations.", "anchors": ["internal/nozzle/nozzle.go: buildBatchReq, selectorTypes"]}
{"id": "C74", "title": "Syslog conversion", "statement": "A message with one structured-data element is accepted exactly when the element's name begins with counter, gauge, event or timer and its numbers are well formed and in range, and then the envelope carries exactly those data (counters and timers written in decimal are read back for all 64-bit values); a message without structured data becomes a log line, trimmed, with type ERR exactly for priority 11; every message is counted exactly once as ingress or invalid; no message crashes the server. The last two parts are FALSE (counterexamples proved: a failed send counts nowhere; a message without process id, application name, time or text crashes the server; the exact crash condition is proved).", "quantifier": "every parsed syslog message and history", "why_tests_cant": "Universal over messages.", "anchors": ["internal/syslog/server.go: convertToEnvelope, convertCounter, convertGauge, convertEvent, convertTimer, parseListener"]}
{"id": "C89", "title": "Syslog conversion is deterministic", "statement": "The envelope a message becomes depends on the message only. FALSE (counterexample proved: with two structured-data elements map iteration order decides between accepting and rejecting, and between a counter and an event); proved for at most one element; with several, each that is well formed may become the envelope and nothing else may.", "quantifier": "every message and map iteration order", "why_tests_cant": "Depends on random map iteration order.", "anchors": ["internal/syslog/server.go: convertToEnvelope"]}
{"id": "C90", "title": "Instance id and source type of syslog messages", "statement": "Of a process id [T/.../I] the first component becomes the source type and the last one the instance id, whatever components are in between. For any other process id: brackets at its ends are taken off, and of the rest the source type is what comes before the first slash and the instance id what comes after the last, both being all of it if there is none.", "quantifier": "every process id", "why_tests_cant": "Universal over process ids.", "anchors": ["internal/syslog/server.go: sourceTypeInstIdFromPID"]}
{"id": "C91", "title": "Syslog messages keep their time", "statement": "The envelope has the time of the message. FALSE for times outside 64 bits of nanoseconds (counterexample proved: a line of the year 3000 is stored before one of 2020); proved inside.", "quantifier": "every message time", "why_tests_cant": "Universal over times.", "anchors": ["internal/syslog/server.go: convertToEnvelope"]}
{"id": "C76", "title": "PromQL results survive the marshaler", "statement": "Marshalling a scalar, vector or matrix result succeeds exactly when every time is a finite number, and unmarshalling the JSON gives back the same result with times in three decimals (exactly the same result if they were), for instant and range results. A result message without value does not survive (counterexample proved).", "quantifier": "every result, any sizes", "why_tests_cant": "Universal.", "anchors": ["pkg/marshaler/marshaler.go: Marshal, Unmarshal, NewEncoder, NewDecoder"]}
{"id": "C92", "title": "Error answers are never read as results", "statement": "The body the gateway writes for a failed query is rejected by the client's decoder whatever the error text; whatever is accepted has a data object with a known result type, and for range queries a matrix.", "quantifier": "every JSON document and error text", "why_tests_cant": "Universal over documents.", "anchors": ["pkg/marshaler/marshaler.go: disassembleInstantQueryResult, disassembleRangeQueryResult", "internal/gateway/gateway.go: httpErrorHandler"]}
{"id": "C93", "title": "Query values arrive as computed", "statement": "Every sample and point the query engine computed arrives at a client that decodes the JSON answer with its labels, value and time in milliseconds, in order and nothing else; and no value crashes the server. The last part is FALSE (a string value panics; the exact condition is proved).", "quantifier": "every engine value, any sizes", "why_tests_cant": "Universal over results.", "anchors": ["internal/promql/promql.go: toInstantQueryResult, toRangeQueryResult, formatPromqlTime", "pkg/marshaler/marshaler.go"]}
{"id": "C77", "title": "Reads never crash on unknown envelope types", "statement": "A read request naming an envelope type number outside the enumeration is answered or rejected. FALSE (counterexample proved: the server panics as soon as an envelope is in the window).", "quantifier": "every request, including type numbers a newer client may send", "why_tests_cant": "Depends on stored data and request together.", "anchors": ["internal/cache/store/store.go: validEnvelopeType"]}
{"id": "C78", "title": "Metrics account for every envelope", "statement": "In every history the ingress metric equals the number of Puts, and ingress = stored + expired + (silently overwritten envelopes).", "quantifier": "every history of puts, prunes and reads", "why_tests_cant": "Conservation law over unbounded histories.", "anchors": ["internal/cache/store/store.go: Put, truncate"]}
{"id": "C79", "title": "The cache-period metric before any memory prune", "statement": "Until the first memory prune the timestamp behind the cache-period gauge is at most every stored key, so the gauge never understates how far back the cache goes, and after each Put it equals now minus that timestamp, which is the oldest under which anything was ever stored. It overstates after an eviction (proved).", "quantifier": "every history without prunes", "why_tests_cant": "History property.", "anchors": ["internal/cache/store/store.go: truncate, setStoreSize"]}
{"id": "C42", "title": "Replication gives every source the configured number of owners", "statement": "When the hash space is partitioned and every range is assigned to k distinct nodes, every source id has exactly k distinct owners on every node that received the table.", "quantifier": "every assignment, node count, replication factor and source id", "why_tests_cant": "Universal over assignments.", "anchors": ["internal/routing/routing_table.go: SetRanges, Lookup", "internal/scheduler/scheduler.go: Start"]}
{"id": "C80", "title": "Ranges of unknown addresses are ignored", "statement": "A SetRanges request naming an address the node does not know adds no route. FALSE (counterexample proved: the range is routed to node 0, the zero value of the missing map entry).", "quantifier": "every request", "why_tests_cant": "Depends on the combination of configuration and request.", "anchors": ["internal/routing/routing_table.go: SetRanges"]}
{"id": "C81", "title": "Orchestration requests never crash a node", "statement": "AddRange, RemoveRange and ListRanges are answered in every state. FALSE (counterexample proved: an AddRange without range makes a later RemoveRange dereference nil); proved when every AddRange carries a range, and exactly which RemoveRange crashes.", "quantifier": "every sequence of requests", "why_tests_cant": "A crash that needs a particular history.", "anchors": ["internal/routing/orchestrator.go: AddRange, RemoveRange, ListRanges"]}
{"id": "C82", "title": "Every Send is answered", "statement": "A Send is answered whatever it contains. FALSE (counterexample proved: a Send without envelope batch that is not local-only dereferences nil); proved for every Send that is local-only or carries a batch.", "quantifier": "every request", "why_tests_cant": "Universal over requests.", "anchors": ["internal/routing/ingress_reverse_proxy.go: Send"]}
{"id": "C83", "title": "Client i talks to node i", "statement": "The i-th client of a node's proxies talks to the i-th configured address and the local index is the node's own. FALSE when a dial fails (counterexample proved: later clients shift down by one); proved when all dials succeed. In general the clients are those of the nodes that could be dialled, in order, and a node takes itself for the right one exactly if all nodes before it could be dialled.", "quantifier": "every number of nodes, own index and pattern of dial failures", "why_tests_cant": "Universal over configurations.", "anchors": ["internal/cache/log_cache.go: setupRouting"]}
{"id": "C84", "title": "Every node gets the table the leader computed", "statement": "The scheduler's leader pushes to every node the same assignment, in which each worker address carries exactly the ranges the orchestrator reports for it; nodes that accept it agree on every lookup.", "quantifier": "every worker state, any failing nodes", "why_tests_cant": "Universal.", "anchors": ["internal/scheduler/scheduler.go: setRemoteTables, convertWorkerState"]}
{"id": "C46", "title": "A following walk skips nothing", "statement": "If every envelope becomes readable at most the walk's delay after its timestamp, a walk without end time never skips an envelope. FALSE (counterexample proved: the clock is read after the answer arrived, so an envelope that appears during a slow read is skipped); proved when lateness plus read latency stay within the delay.", "quantifier": "every growing log, read latency, page size, failure pattern", "why_tests_cant": "Timing dependent, unbounded histories.", "anchors": ["pkg/client/walk.go: Walk, WithWalkDelay"]}
{"id": "C49", "title": "Windows tile time", "statement": "The k-th window covers [start+k*interval, start+k*interval+width); with width = interval, on a fixed log with distinct timestamps, or read in whole groups of one timestamp, and while no walk ends with a failed read, the visited batches together contain every envelope exactly once, in order.", "quantifier": "every start, interval, number of windows and log", "why_tests_cant": "Unbounded number of windows.", "anchors": ["pkg/client/window.go: Window, BuildWalker"]}
{"id": "C85", "title": "Query data reads apply the Read API's default end time", "statement": "A data read without end time reads until now. FALSE (proved for every run: it delivers nothing with a non-negative timestamp).", "quantifier": "every request and reader", "why_tests_cant": "Universal over runs.", "anchors": ["internal/promql/data_reader/walking_data_reader.go: Read"]}
{"id": "C56", "title": "Seeking in a series finds the first point at or after a time", "statement": "In a series returned by Select points are in time order, and Seek(t) positions the iterator at the first point whose time is at least t, or reports that there is none. FALSE when the labels of two sources collide (counterexample proved: their points follow one another in one series, and Seek reports that there is no point although there is one); proved for readers that answer each source in time order and labels that do not collide.", "quantifier": "every series and time", "why_tests_cant": "Universal over series.", "anchors": ["internal/promql/promql.go: concreteSeriesIterator.Seek"]}
{"id": "C58", "title": "Source-id expansion is exact", "statement": "After replacing source ids by non-empty sets of ids free of '|', the query names exactly the union of the sets, and everything else in the query (other matchers, operators, literals, tree shape) is unchanged.", "quantifier": "every query and expansion", "why_tests_cant": "Universal over queries.", "anchors": ["internal/promql/promql.go: ReplaceSourceIdSets"]}
{"id": "C59", "title": "Query answers are a function of the stored data", "statement": "The series a selector returns do not depend on map iteration order. FALSE (counterexample proved: a gauge with two metric names that sanitize to the selected name yields either value); proved when at most one metric name sanitizes to the selected name.", "quantifier": "every query, data set and map iteration order", "why_tests_cant": "Depends on the random iteration order of maps.", "anchors": ["internal/promql/promql.go: Select"]}
{"id": "C60", "title": "Iterating a series visits every point once", "statement": "Calling Next until it reports the end visits every point of the series exactly once, in order.", "quantifier": "every series", "why_tests_cant": "Unbounded length.", "anchors": ["internal/promql/promql.go: concreteSeriesIterator.Next"]}
{"id": "C86", "title": "A CAPI outage does not revoke cached rights", "statement": "A source CAPI listed for a token stays authorized for one cache interval. FALSE (counterexample proved: a request for another source during an outage overwrites the cached list by the empty list of the failed request); proved while no further fetch is made.", "quantifier": "every history", "why_tests_cant": "Needs a failure between two requests.", "anchors": ["internal/auth/capi_client.go: IsAuthorized, AvailableSourceIDs"]}
{"id": "C87", "title": "CAPI listings end", "statement": "A paginated listing ends for every server. FALSE (counterexample proved: pages that always link on are followed for ever); proved for every finite chain of pages.", "quantifier": "every server", "why_tests_cant": "Unbounded pagination.", "anchors": ["internal/auth/capi_client.go: doPaginatedResourceRequest"]}
{"id": "C88", "title": "Every token is answered", "statement": "Reading a token never crashes. FALSE (counterexample proved: an RS256 token without key id fails a type assertion); the exact crash condition is proved.", "quantifier": "every token", "why_tests_cant": "Universal over tokens.", "anchors": ["internal/auth/uaa_client.go: Read"]}
{"id": "C50", "title": "Requests carry the current token", "statement": "A request sent through the Oauth2 client without an Authorization header of its own is sent with the last token the Oauth2 server gave out, a token is fetched only when there is none or when a request with the last one was refused, and requests with their own header are sent unchanged and fetch nothing. Proved for calls one after the other. FALSE for calls side by side (counterexample proved: a request is sent with an empty Authorization header, because a refused call clears the token without the lock); proved for every schedule: the header is empty only after a refusal, otherwise a token the server gave out, and at most one token request is in flight. Documented 'only after a 401': FALSE (counterexample proved: any answer outside 2xx).", "quantifier": "every sequence and every schedule of calls, every answer", "why_tests_cant": "Depends on schedules and unbounded histories.", "anchors": ["pkg/client/oauth2_http_client.go: Do, getClientToken, getUserToken, doTokenRequest"]}
{"id": "C51", "title": "The HTTP client speaks to servers of every version", "statement": "Before each Read over HTTP the client asks for the server's version; it reads under /v1 from servers before 2.0.0 and from those that answer 404, under /api/v1 from all later ones, and not at all when the question fails otherwise; it answers exactly the server's envelopes. The version it reports is the one the server sent, or 1.4.7 when the server does not know the question. The uptime is the integer the server sent, and -1 with an error otherwise.", "quantifier": "every version, answer, source id and option list", "why_tests_cant": "Universal over versions and answers.", "anchors": ["pkg/client/client.go: Read, getBaseApiPath, LogCacheVersion, LogCacheVMUptime"]}
{"id": "C52", "title": "Read options arrive at the server", "statement": "A Read with any list of options, over HTTP or gRPC, reaches the server as a request for that source, start time, the last given end time, limit, name filter, all given envelope types, and descending order iff asked for. FALSE over gRPC/HTTP for envelope type numbers without a name (counterexample proved); proved for HTTP in the int64 range with known types, and for gRPC.", "quantifier": "every source id, start time and option list", "why_tests_cant": "Universal over option lists.", "anchors": ["pkg/client/client.go: Read, WithEndTime, WithLimit, WithEnvelopeTypes, WithDescending, WithNameFilter"]}
{"id": "C73", "title": "The access log records every request once", "statement": "Every request to the auth proxy is served, whether its log entry can be written or not, and leaves one CEF line naming its time, method, path and both ends of its connection, from which these texts can be recovered. FALSE that an entry is one line (counterexample proved: a path with an encoded line feed forges any further entry) and that the source is named (counterexample proved: a forwarded IPv6 address without brackets is logged as nothing); proved for requests without line feeds and for the other address forms.", "quantifier": "every sequence of requests with any texts, every pattern of failing writes", "why_tests_cant": "Universal over request texts and histories.", "anchors": ["internal/auth/access_log.go: String", "internal/auth/access_logger.go: LogAccess", "internal/auth/access_middleware.go: ServeHTTP"]}
{"id": "C75", "title": "Nothing gets past the front door", "statement": "Whatever request the proxy receives, a Read that reaches log-cache because of it is of a source the user may read, a query that reaches log-cache names only sources the user may read, log-cache's Meta answer never reaches the client unfiltered, and without a token nothing but the version is answered; and a user who may read a source can. FALSE (counterexamples proved: a user authorized for 'a:' reads 'a'; with gateway libraries that know JSON field names the parameter sourceId replaces the authorized source; sources whose id has a colon, an empty segment or dots as a segment cannot be read by anyone); proved up to a final colon, and served for all other ids.", "quantifier": "every request path, parameter list, method and authorization answer", "why_tests_cant": "Universal over paths that two routers interpret differently.", "anchors": ["internal/auth/cf_auth_middleware.go: Middleware", "internal/gateway/gateway.go: listenAndServe", "pkg/rpc/logcache_v1/egress.pb.gw.go: request_Egress_Read_0", "pkg/rpc/logcache_v1/promql.pb.gw.go"]}
{"id": "C100", "title": "Finding an envelope stays cheap", "statement": "After any history of calls, storing, finding and removing an envelope looks at no more than 2*log2(n+1)+1 of the n envelopes of its source, and rebalancing never crashes; likewise for finding the node of a hash.", "quantifier": "every history", "why_tests_cant": "Must hold for every order of timestamps, evictions and prunes.", "anchors": ["internal/cache/store/store.go: insertOrSwap, removeOldestEnvelope", "internal/routing/static_lookup.go: Lookup"]}
{"id": "C96", "title": "Times and steps of queries mean what they say", "statement": "A decimal number of seconds in a query means that time, dates and durations mean what they say, later times are not read as earlier ones, answers carry exact milliseconds, text that is no number, date or duration is an error. FALSE (counterexamples proved: '1.001' is read as a time in the millisecond before; '1e10' and 'nan' are accepted as the year 1677; steps that are zero, negative or not a number are accepted; a duration of 300 years is read as a negative one); RFC 3339 dates are read exactly as the calendar says, in every zone, and durations exactly up to 292 years; proved exact for whole seconds and within half a microsecond otherwise, below 2^32 seconds; exactly which texts are read as numbers, and that each is read as the nearest float64.", "quantifier": "every text of a number, date or duration", "why_tests_cant": "Universal over texts; float64 rounding, calendar arithmetic.", "anchors": ["internal/promql/parsing.go: ParseStep, ParseDuration, ParseTime", "internal/promql/promql.go: formatPromqlTime"]}
{"id": "C97", "title": "Queries are answered with all their data or not at all", "statement": "An instant or range query is answered only if every read of every source of every selector the engine evaluated succeeded, even if the engine ignores the errors, and the answer is the engine's value at the requested times; otherwise it is an error and the failure counter goes up by one; nothing is read for a query with an unreadable time.", "quantifier": "every engine, query, time and pattern of failing reads", "why_tests_cant": "Universal over engines and failures.", "anchors": ["internal/promql/promql.go: InstantQuery, RangeQuery, Querier, Select"]}
{"id": "C101", "title": "Query times given to the client library reach the server", "statement": "The time, start and end options of client queries arrive as that time. FALSE to the millisecond (counterexample proved: some whole milliseconds arrive a fraction of a microsecond early); proved exact for whole seconds, within half a microsecond for whole milliseconds and within 501.5 microseconds for the rest, below 2^32-1 seconds.", "quantifier": "every time", "why_tests_cant": "Universal; float64 rounding on both sides.", "anchors": ["pkg/client/client.go: WithPromQLTime, WithPromQLStart, WithPromQLEnd, formatDecimalTimeWithMillis", "internal/promql/parsing.go: ParseTime"]}
{"id": "C102", "title": "What a node forwards arrives in order or is counted", "statement": "The envelopes a node forwards to another one arrive there in order, none twice, in requests of 1 to 100 envelopes that are not forwarded again; none is held back for ever; every one that does not arrive is counted as dropped, and envelopes are dropped only while more than 10000 wait. FALSE for requests the other node does not take (counterexample proved: the envelopes are lost and not counted); proved otherwise, with one Send at a time.", "quantifier": "every sequence of Sends, buffer reads, timer states and failing requests", "why_tests_cant": "Universal over histories; the buffer holds 10000 envelopes.", "anchors": ["internal/routing/batched_ingress_client.go: NewBatchedIngressClient, Send, start, write", "internal/cache/log_cache.go: setupRouting"]}
{"id": "C103", "title": "Concurrent Sends do not disturb forwarding", "statement": "When several clients Send at the same time, every envelope for another node arrives there or is counted as dropped, and later envelopes go on arriving. FALSE (counterexamples proved for every buffer size: one of two envelopes vanishes uncounted; or forwarding to that node stops until as many envelopes were accepted as the buffer holds, 9999 of which are then lost); proved that calls are atomic while only one Send is at work.", "quantifier": "every interleaving of two Sends at the level of memory accesses, every later history", "why_tests_cant": "Data race: tests see only some schedules.", "anchors": ["internal/routing/batched_ingress_client.go: Send", "internal/routing/ingress_reverse_proxy.go: Send"]}
{"id": "C98", "title": "A Meta answer was true while the call ran", "statement": "Under any interleaving with Puts, Gets and prunes, every line of the answer of Meta describes its source as it was at one moment between the call and the answer: count, oldest and newest timestamp and number of expired envelopes belong together, and the source held envelopes. FALSE (counterexamples proved: count 2 together with oldest = newest = the timestamp of the first of two envelopes; a source listed with count 0 to which nothing was put yet); proved that oldest, newest and expired were right together at one moment of the call, the count at a later moment of the call, and each source is listed once.", "quantifier": "every configuration with maxPerSource >= 1, every schedule of any number of concurrent calls, every Meta call in it", "why_tests_cant": "Tests do not control which Put or prune falls between the two loops of Meta.", "anchors": ["internal/cache/store/store.go: Meta, getOrInitializeStorage, insertOrSwap, truncate"]}
{"id": "C99", "title": "Meta misses no source", "statement": "Under any interleaving with other calls, a source that holds envelopes when Meta is called is in the answer, unless a prune has dropped it since.", "quantifier": "every configuration with maxPerSource >= 1, every schedule of any number of concurrent calls, every source, every Meta call", "why_tests_cant": "Depends on the schedule and on the iteration order of a concurrent map.", "anchors": ["internal/cache/store/store.go: Meta, truncate, removeOldestEnvelope"]}
{"id": "C104", "title": "A query means the same over HTTP and over gRPC", "statement": "A PromQL query made with the client library, instant or range, asks the server for the same query, time, start, end and step whether it goes over gRPC or over HTTP through the gateway, and returns the server's result, or an error if the server failed. An instant query with a time of whole seconds is evaluated at that time, one without a time at the current second. FALSE for an empty result message (proved: no error over gRPC, an error over HTTP).", "quantifier": "every query text, list of options, server answer", "why_tests_cant": "Tests use one or two options and a stub server.", "anchors": ["pkg/client/client.go: PromQL, PromQLRange, grpcPromQL, grpcPromQLRange, WithPromQLTime, WithPromQLStart, WithPromQLEnd, WithPromQLStep", "internal/gateway/gateway.go: httpErrorHandler", "pkg/rpc/logcache_v1/promql.pb.gw.go"]}
{"id": "C105", "title": "A raw query carries the server's result or its error text", "statement": "A raw PromQL query through the gateway returns a success with the server's data in it, or the server's error text when the status is 400 or 500, and is an error on every other status. An answer that is not from the query API is an error. FALSE for the last part (counterexamples proved: a 500 whose body is {} comes back without error and without status).", "quantifier": "every query text, list of options, server answer and mapping of codes to statuses", "why_tests_cant": "Tests use single canned bodies.", "anchors": ["pkg/client/client.go: PromQLRaw, PromQLRangeRaw", "internal/gateway/gateway.go: httpErrorHandler"]}
{"id": "C107", "title": "The measured reliability is the received share of the expected test metrics", "statement": "The blackbox asks for its test metric in the configured window, a lag before now; the reliability it computes is the number of points received divided by the number of emissions that fit into the window, correctly rounded: 1 exactly when all arrived, less when fewer did, and never more than 1. There is a value exactly when the query succeeded and found a series. FALSE in two respects (proved: with an emission every 100 ms a window of 300 ms counts as 2 emissions; a window that is a multiple of the distance holds one emission more than expected at its two ends, so that the value exceeds 1); proved for all windows and distances of whole seconds.", "quantifier": "every window, distance, lag, sampling interval, time and answer of the server", "why_tests_cant": "Floating point truncation depends on the numbers; the tests use one window.", "anchors": ["internal/blackbox/blackbox.go: Calculate, ExpectedSamples, CountMetricPoints"]}
{"id": "C108", "title": "What the blackbox measured is published", "statement": "Each round publishes exactly the reliabilities it measured, unless the VM is known to run for less than ten minutes. FALSE (proved: with CF_BLACKBOX_ENABLED unset, its default, the program crashes with the first measurement it makes); proved with CF_BLACKBOX_ENABLED set, for every combination of failures.", "quantifier": "every configuration, every answer to both queries and of the information endpoint", "why_tests_cant": "Needs all combinations of failures, and main is not tested.", "anchors": ["internal/blackbox/blackbox.go: EmitMeasuredMetrics", "cmd/blackbox/main.go: main", "pkg/client/client.go: LogCacheVMUptime"]}
{"id": "C109", "title": "Test metrics come at regular times and failures are reported", "statement": "Test metrics carry timestamps on the grid of the emission interval, there is a warning exactly when a timestamp does not follow its predecessor at that distance, an emission is tried up to five times until it succeeds, a failed emission is logged and missing samples are listed. FALSE for the last two (proved: a failed emission is never logged, and no missing sample is ever listed for a query later than some minutes after 1970).", "quantifier": "every sequence of ticks, every pattern of failures, every answer", "why_tests_cant": "Log output is not tested; needs all patterns of failures.", "anchors": ["internal/blackbox/blackbox.go: StartEmittingTestMetrics, emitTestMetrics, printMissingSamples"]}
{"id": "C106", "title": "Clients see the gateway's version and uptime", "statement": "GET /api/v1/info answers with the gateway's version and the uptime of its VM so that the client library reads exactly these: the version chooses the path of reads, the uptime is the number the gateway has. FALSE for versions with quotes or backslashes (counterexamples proved).", "quantifier": "every version text and every uptime of 64 bits, every parser of versions, every read", "why_tests_cant": "The answer is put together with Sprintf and taken apart with a JSON decoder; tests try one version. Versions come from the build.", "anchors": ["internal/gateway/gateway.go: handleInfoEndpoint", "pkg/client/client.go: LogCacheVersion, LogCacheVMUptime, getBaseApiPath"]}
{"id": "C110", "title": "A syslog connection delivers its messages", "statement": "The messages sent on a syslog connection in octet-counting frames are each handled once, in order, as soon as their last octet is there, however the network cuts the stream into pieces and whenever the pieces arrive before the idle deadline; a connection closed between messages is no error, and one closed within a message is one error, the part being taken for no message; for every stream of octets the results are those of the intact frames at its beginning followed by at most one error. FALSE as messages are not independent (proved: after one message that is not accepted, or one longer than the parser's buffer, all later ones of the connection are lost and one error is counted; a message that takes longer than the idle timeout is lost although octets keep arriving; a connection without data counts as an invalid message).", "quantifier": "every stream of octets, every cutting into pieces and every arrival time, every number of messages", "why_tests_cant": "Needs every segmentation of the stream; tests write whole messages.", "anchors": ["internal/syslog/server.go: handleConnection, parseListenerForConnection, setReadDeadline, Start"]}
{"id": "C111", "title": "Log lines of conforming senders arrive as they were sent", "statement": "The server accepts exactly the messages of RFC 5424; every log line sent in that form is stored with its source id, instance id, time, process type, output stream and text, counted once, without errors. FALSE for some conforming messages (proved: a message without process id or without text stops the whole server with a nil pointer); source ids of more than 48 characters cannot be sent.", "quantifier": "every list of log lines (all texts, times, zones, names), every segmentation of the stream", "why_tests_cant": "Needs all texts and all messages of the grammar; tests try a few lines.", "anchors": ["internal/syslog/server.go: handleConnection, parseListener, convertToEnvelope, sourceTypeInstIdFromPID, typeFromPriority"]}
{"id": "C112", "title": "Timestamps of 64 bits do not change what the store does", "statement": "The store, which computes with 64 bit numbers, does for every history of calls whose timestamps are at least 4000 ns before the end of the 64 bit range exactly what it would do with unbounded numbers, except that the cache period gauge is right only for distances below 2^63 ns. FALSE at the end of the range (proved: of two envelopes with the largest timestamp the second is kept as the oldest; the source then claims to reach back to 1677, the cache period is negative and the newest envelope is evicted instead of the oldest).", "quantifier": "every history of calls with any 64 bit timestamps, every configuration", "why_tests_cant": "Needs all timestamps, histories and overflow; tests use current times.", "anchors": ["internal/cache/store/store.go: insertOrSwap, truncate, calculateCachePeriod"]}
{"id": "C113", "title": "A read over HTTP returns the envelopes the gateway got", "statement": "The envelopes the client library returns for a read over HTTP are exactly those the gateway received over gRPC, and the same holds for meta information: timestamps and counters to the last digit, floating point values to the last bit (also infinities and NaN), log payloads byte for byte, all tags, unknown log types. The answers are documents of the JSON grammar.", "quantifier": "all responses: any number of envelopes of all kinds with all contents their fields can hold; all meta maps", "why_tests_cant": "Unit tests compare a few envelopes with short text; the encodings of 64 bit integers, floats, bytes and text each have infinitely many cases.", "anchors": ["internal/gateway/gateway.go: listenAndServe", "pkg/marshaler/marshaler.go: Marshal", "pkg/client/client.go: Read, Meta", "api/v1/egress.proto"]}
{"id": "C114", "title": "How strictly the client library reads answers", "statement": "The order of the fields of an envelope in an answer does not matter, and names in camel case are accepted as well as those of the protocol. A field beside the message that is null or missing is the empty value, and the others are read as ever. But one field of any envelope that the client does not know makes the whole read fail. The same holds for meta information.", "quantifier": "all answers with any number of envelopes and any fields; all orders of fields", "why_tests_cant": "Tests only read answers of the gateway of the same version.", "anchors": ["pkg/client/client.go: Read"]}
{"id": "C115", "title": "What is sent over gRPC arrives", "statement": "Every message of the gRPC interfaces (envelopes to write, read requests and answers, meta information, hash ranges, PromQL queries and results) is received as it was sent: all numbers, texts, payloads, tags and floating point values, whatever order the maps are written in; only an empty log payload arrives as none. The bytes are those of the protocol: field numbers and types of the .proto files in the encoding of protocol buffers.", "quantifier": "all messages with all contents their fields can hold, every iteration order of every map; every varint", "why_tests_cant": "Generated code is not unit tested here, and a message with a wrong field number works as long as both sides have the same mistake; maps are written in random order.", "anchors": ["api/v1/egress.proto", "api/v1/ingress.proto", "api/v1/orchestration.proto", "api/v1/promql.proto", "pkg/rpc/logcache_v1/egress.pb.go", "pkg/rpc/logcache_v1/ingress.pb.go"]}
{"id": "C116", "title": "Nodes of different versions understand each other", "statement": "A field that a message does not have in this version is ignored by the receiver, wherever it is in the message and whatever it contains; fields that are missing are zero; a message written in two parts is the first one with the contents of the second one added.", "quantifier": "all 28 message types, all unknown field numbers, all values, all positions, all other contents (also malformed ones)", "why_tests_cant": "Tests run a single version.", "anchors": ["api/v1/egress.proto", "api/v1/ingress.proto", "api/v1/orchestration.proto", "api/v1/promql.proto"]}
{"id": "C117", "title": "Settings mean what they say", "statement": "A command started with an environment has for each of its settings the value that the variable spells (numbers, durations like 1m30s to the nanosecond, lists with or without white space, switches), or the documented default if the variable is not there and not required; it starts if all settings have a value, and not if a required one is missing.", "quantifier": "all environments, all tables of settings (those of the seven commands included), all durations away from 292 years", "why_tests_cant": "The packages of the commands have no unit tests, and the syntax of durations has infinitely many texts; fractions go through floating point numbers.", "anchors": ["cmd/log-cache/config.go: Config, LoadConfig", "cmd/scheduler/config.go", "cmd/gateway/config.go", "cmd/cf-auth-proxy/config.go", "cmd/nozzle/config.go", "cmd/syslog-server/config.go", "cmd/blackbox/config.go"]}
{"id": "C118", "title": "Misspelt settings are refused", "statement": "A command does not start with a setting whose text is not of its kind. True for numbers and durations. FALSE for switches and lists (proved: SKIP_CERT_VERIFY=True starts and is off; a comma after the last address of NODE_ADDRS is another node with an empty address); the default of a required setting is never used.", "quantifier": "all environments, all tables of settings", "why_tests_cant": "The commands' packages have no unit tests; needs all texts.", "anchors": ["cmd/log-cache/config.go: LoadConfig", "cmd/cf-auth-proxy/config.go: Config, LoadConfig"]}
{"id": "C119", "title": "Accepted settings work", "statement": "A command that accepts its settings does what it is for. True for positive settings: nodes take every envelope, the scheduler divides all hashes and goes on scheduling, the proxy goes on removing tokens, the blackbox goes on. FALSE without a check for zero and negative settings (proved: COUNT=0 and SAMPLE_INTERVAL=0 stop the process with a panic, MAX_PER_SOURCE=0 stops the node at its first envelope, INTERVAL=-1m schedules once and never again, TOKEN_PRUNING_INTERVAL=0 never removes tokens).", "quantifier": "all values of these settings, all histories, all times", "why_tests_cant": "Tests use sensible values, and effects of intervals show only over time.", "anchors": ["cmd/scheduler/config.go", "cmd/log-cache/config.go", "internal/scheduler/scheduler.go: Start", "internal/auth/capi_client.go: pruneTokens", "cmd/blackbox/main.go: main", "internal/blackbox/blackbox.go: StartEmittingTestMetrics", "internal/cache/store/store.go: insertOrSwap"]}
{"id": "C120", "title": "Requests go to the configured gateway", "statement": "The proxy sends all requests by HTTPS to the host of LOG_CACHE_GATEWAY_ADDR, whatever the scheme, under its path. True for URLs with a scheme and for a name alone. FALSE for an address like the documented default localhost:8081 (proved: every name:port leaves the proxy without a host, so that every request fails; with an IP address and a port it does not start).", "quantifier": "all addresses of letters, digits and . - _ : /, all request paths", "why_tests_cant": "Tests give the proxy a URL; the parsing of main is not tested.", "anchors": ["cmd/cf-auth-proxy/main.go: main", "cmd/cf-auth-proxy/config.go: LoadConfig", "internal/cfauthproxy/cf_auth_proxy.go: NewCFAuthProxy, reverseProxy"]}
{"id": "C121", "title": "Envelopes land on the nodes they belong to", "statement": "Whichever node an envelope is sent to, it is put into the stores of the nodes its source belongs to and into no others. True if every node's index is its place in the list of addresses. FALSE as any index is accepted (proved: if the first node's index is outside the list, what is meant for it goes round without end and is never stored; two nodes with each other's index store a source in places that depend on where it was sent).", "quantifier": "all numbers of nodes, all indexes, all owners, all entry nodes", "why_tests_cant": "Needs all configurations of a cluster; unit tests have one node with stubs.", "anchors": ["internal/cache/log_cache.go: setupRouting", "internal/routing/ingress_reverse_proxy.go: Send", "internal/routing/batched_ingress_client.go: Send", "cmd/log-cache/config.go: Config"]}
{"id": "C122", "title": "The scheduler leads when it is told so", "statement": "The scheduler acts as leader exactly when its leadership endpoint says so. True while fewer answers had a body than connections may be open. FALSE in the long run (proved: answers are never closed, so after as many answers with a body as the process may have connections it is never leader again).", "quantifier": "all sequences of answers and failures of the endpoint, all limits of connections", "why_tests_cant": "Shows only after many calls; main is not tested.", "anchors": ["cmd/scheduler/main.go: main", "internal/scheduler/scheduler.go: WithSchedulerLeadership"]}
{"id": "C123", "title": "A token key that UAA has withdrawn is no longer accepted", "statement": "Tokens are checked only with keys UAA has published; once a refresh of the keys that asked UAA after a key was withdrawn has ended, tokens signed with that key are refused, and right after a refresh exactly the keys of UAA's answer are known. True if no refresh that asked earlier stores its keys later. FALSE in general (proved: of two refreshes that are let through together the older answer may be stored last, which brings a withdrawn key back and forgets a published one; and no refresh ever happens because time has passed, so a withdrawn key may be accepted for ever).", "quantifier": "all interleavings of any number of refreshes and checks of tokens, all changes of the published keys over time, all times UAA takes to answer", "why_tests_cant": "Races between refreshes and the passage of time cannot be covered by single calls with a stub.", "anchors": ["internal/auth/uaa_client.go: RefreshTokenKeys, loadOrFetchPublicKey, Read", "cmd/cf-auth-proxy/main.go: main"]}
{"id": "C124", "title": "A withdrawn right ends", "statement": "A user who loses the right to read a source is refused at the latest when the cached list of the token has expired, and once refused stays refused until the right is granted again. True with the time CAPI takes to answer added to the interval of the cache: no request is let through later than that after the withdrawal. FALSE without it (proved: with a slow CAPI the delay has no bound; and a list fetched earlier but stored later lets a refused user in again).", "quantifier": "all interleavings of requests, answers of CAPI and prunings of the cache, all changes of rights over time, all intervals", "why_tests_cant": "Needs overlapping slow requests at chosen times; tests use an immediate stub.", "anchors": ["internal/auth/capi_client.go: IsAuthorized, AvailableSourceIDs, pruneTokens"]}
{"id": "C125", "title": "Meta of a cluster is at most one cache period behind the stores", "statement": "Every entry in an answer to a cluster wide Meta request was true in the store of one of the nodes within the cache period before the answer, and every source a node has held throughout that time is listed. True for the sources of the node that is asked, with the time the fetch took added; for those of the other nodes with two cache periods and the times of both fetches; listing as long as no request between the nodes failed. FALSE with one cache period (proved: answers of other nodes are cached on both sides, so even without any delay an answer may be two full periods old; and one failed request hides all sources of a node for a period).", "quantifier": "all numbers of nodes, all interleavings of local and cluster wide requests on all nodes, all changes of the stores over time, all cache durations, all delays", "why_tests_cant": "Needs several nodes with caches filled at chosen times; tests have one proxy with stubs.", "anchors": ["internal/routing/egress_reverse_proxy.go: Meta, localMeta, remoteMeta, expired", "internal/cache/log_cache.go: setupRouting", "internal/cache/store/store.go: Meta"]}
{"id": "C126", "title": "A user who may read a source gets what was sent for it", "statement": "From the bytes of a Send to the value the client library returns: a user with the right to read a source who asks for it over HTTP gets exactly the requested part (window, types, names, order, limit) of the envelopes that were sent for that source to any node, each with every field as it was sent, whichever node the request enters at. Proved for a cluster at rest whose nodes agree, for ids the routers let through (no colon, see C75) and answers that fit in a grpc message (C127). FALSE for sources with equal times that are not spread out (proved: of two logs of one time, sent after later ones, a user who reads that time with room for 100 gets only one), for ids with a colon followed by more (proved: nobody gets anything) and, as for who gets it, for users with the right to an id with a colon at its end (proved: they get the source without the colon).", "quantifier": "all clusters, tables, histories of Sends to any nodes, all contents of envelopes, all options of a read, all entry nodes, every order in which maps are written", "why_tests_cant": "The path crosses five processes and three encodings; unit tests stub all neighbours.", "anchors": ["internal/routing/ingress_reverse_proxy.go: Send", "internal/routing/egress_reverse_proxy.go: Read", "internal/routing/local_store_reader.go: Read", "internal/cache/store/store.go: Put, Get", "internal/gateway/gateway.go: listenAndServe", "internal/cfauthproxy/cf_auth_proxy.go: Start", "pkg/client/client.go: Read"]}
{"id": "C127", "title": "A permitted read is answered however large the answer is", "statement": "A read within the documented limit of 1000 envelopes is answered. True if the limit of the request times the size of the largest envelope is within 4 MiB. FALSE in general (proved: grpc refuses messages above 4 MiB, so a read whose part of the source is larger is answered with an error for every user at every node; two logs of 3 MiB that were both accepted cannot be read together).", "quantifier": "all clusters at rest, all contents, all options, all entry nodes", "why_tests_cant": "Needs large envelopes and a real grpc connection between gateway and node.", "anchors": ["internal/gateway/gateway.go: listenAndServe", "internal/cache/log_cache.go: setupRouting", "internal/routing/egress_reverse_proxy.go: Read"]}
{"id": "C128", "title": "Batching does not lose envelopes", "statement": "An envelope that arrives when it is sent alone also arrives in a batch. True for envelopes of up to 8186 bytes, between nodes up to 41937 bytes. FALSE in general (proved for nozzle, syslog server and nodes: batches are bounded by number and not by size, so a full batch of logs of 50 kB is refused by grpc as a whole and not sent again; and a request of exactly the largest size a node takes cannot be passed on to the owner).", "quantifier": "all batches of all envelopes, for all three writers", "why_tests_cant": "Needs batches of large envelopes over a real connection; tests have a stub in its place.", "anchors": ["internal/nozzle/nozzle.go: envelopeBatcher, envelopeWriter", "internal/routing/batched_ingress_client.go: write", "internal/cache/log_cache.go: setupRouting", "cmd/syslog-server/main.go: main"]}
{"id": "C129", "title": "What is received over syslog can be read", "statement": "An envelope received by a syslog server can be read at every node of the cluster, like one sent by a client. True if the node the server writes to is the owner of the source. FALSE otherwise (proved: the server marks its requests local-only, so the node stores the envelope itself although the source belongs to another node, and every read is answered by an owner, which does not have it).", "quantifier": "all clusters whose nodes agree, all histories of client and syslog requests, all sources, all entry nodes", "why_tests_cant": "The syslog server is tested with a stub in place of a cluster.", "anchors": ["cmd/syslog-server/main.go: main", "internal/routing/batched_ingress_client.go: write", "internal/routing/ingress_reverse_proxy.go: Send", "internal/routing/egress_reverse_proxy.go: Read"]}
{"id": "C130", "title": "Commands talk only to servers that prove who they are", "statement": "With certificate verification on, a node, the gateway, the nozzle, the syslog server, the scheduler, the blackbox (calling a node) and the proxy (calling the gateway, UAA or CAPI) go on with a call exactly when the server proves a certificate in date, for the expected name (\"log-cache\" for nodes, CAPI_COMMON_NAME for CAPI, the host called otherwise), issued under one of the authorities in the file the operator named; calls to nodes, UAA and CAPI also demand TLS 1.2 with one of two suites, or a later version. The blackbox, calling the proxy, goes by the authorities of the system instead. A command whose file is missing or holds no certificate does not start.", "quantifier": "all files, settings, servers, certificates, versions and suites", "why_tests_cant": "tests use one good and one bad certificate", "anchors": ["internal/tls/tls.go:42-78", "cmd/cf-auth-proxy/main.go:129-179", "internal/cfauthproxy/cf_auth_proxy.go:119-137"]}
{"id": "C131", "title": "Nodes serve only callers with a certificate of the authority", "statement": "A node, whose settings name an authority, a certificate and a key, serves only callers that prove a certificate issued under that authority.", "quantifier": "all settings and callers", "why_tests_cant": "tests only call with good certificates", "anchors": ["cmd/log-cache/main.go:61", "internal/tls/tls.go:42-65", "internal/gateway/gateway.go:156-159"]}
{"id": "C132", "title": "What a client asks for is what the gateway reads", "statement": "Whatever characters a source id, a name filter or a query is made of, the proxy and the gateway read from the bytes of the request the path and the parameters the client library was given, and the request that the options mean. The request target is one word of printable ASCII. A request with a parameter that cannot be read is refused.", "quantifier": "all paths, parameters, ids, options and queries", "why_tests_cant": "escaping bugs show for single characters only", "anchors": ["pkg/client/client.go:120-131", "pkg/rpc/logcache_v1/egress.pb.gw.go:54-59", "pkg/rpc/logcache_v1/promql.pb.gw.go:39-62"]}
{"id": "C133", "title": "An instant query for a metric returns its newest value", "statement": "An instant query that is a plain selector (a metric, source ids and labels that must equal something) answers at time t, for every combination of labels, with the value of the newest stored envelope of that metric, source and labels in the five minutes up to t, once, and with nothing else; without a time, t is now. True with t exclusive, rounded down to a millisecond, and five minutes counted from the beginning of the second of an envelope. FALSE for an envelope of exactly time t, and hence for everything of the current second in a query without a time (proved).", "quantifier": "all stored envelopes, selectors with equalities, times, orders of maps", "why_tests_cant": "the tests hand the engine fixed envelopes whatever window it asks for, even ones a node would not return", "anchors": ["internal/promql/promql.go: InstantQuery, Querier, Select, concreteSeriesSet, concreteSeriesIterator", "internal/promql/data_reader/walking_data_reader.go: Read"]}
{"id": "C134", "title": "A range query agrees with instant queries", "statement": "The value of a range query that is a plain selector, at every step, is what an instant query at that time returns. True at whole seconds in which no sample of the series begins. FALSE in general (proved): samples are moved to the beginning of their second, so a step shows the first sample of the second after it, from the future of the step, where an instant query shows the newest before it. Exactly what is shown at each step is proved. And a range query from a time to the same time with step 0 is not answered at all (proved): whenever an instant query for that time would be answered, it crashes the node. With a negative step the engine goes on for more rounds than it can do (proved), and looks at no deadline.", "quantifier": "all stored envelopes, selectors with equalities, starts, ends, steps of at least a millisecond, of zero, and below zero", "why_tests_cant": "needs samples within a second of a step; the tests use whole minutes", "anchors": ["internal/promql/promql.go: RangeQuery, toRangeQueryResult, Select, Seek, At, Next"]}
{"id": "C135", "title": "Sources are spread evenly over the hash space", "statement": "Every node computes the same number for a source id, its CRC-64 checksum (ECMA-182), whether the id is short or long. Ids that differ only within eight adjacent bytes never get the same number, and of all ids that differ in eight given adjacent bytes each range of numbers gets exactly as many as it has numbers. Two ids can share a number; their envelopes are kept apart all the same (C11).", "quantifier": "every byte string as source id, every range", "why_tests_cant": "hashes are computed on a few ids; the library switches to another algorithm for ids of 64 bytes or more", "anchors": ["internal/cache/log_cache.go: setupRouting (hasher)", "internal/routing/routing_table.go: Lookup"]}
{"id": "C136", "title": "What the nozzle counts as delivered can be read", "statement": "Once the nozzle is idle and its counters of received and delivered envelopes agree, a Read for a source, entering at any node, returns the requested part of all envelopes the nozzle received for that source, together with what other clients sent. FALSE: a node acknowledges a batch before it has handed it to the owners, and what is lost between nodes is counted as delivered by the nozzle (counterexample proved). Proved for clusters that lose nothing between nodes; then a Read returns what was delivered, what others sent, and possibly batches the nozzle counts as errors (a Send that was carried out after the nozzle gave up).", "quantifier": "all runs of a nozzle and a cluster, all interleavings of its workers with other clients, all reads", "why_tests_cant": "losses depend on overload and on connections between nodes; unit tests of the nozzle use a fake server, those of nodes have no nozzle", "anchors": ["internal/nozzle/nozzle.go: envelopeBatcher, envelopeWriter, envelopeReader", "internal/routing/ingress_reverse_proxy.go: Send", "internal/routing/batched_ingress_client.go: write", "internal/routing/local_store_reader.go: Read"]}
{"id": "C137", "title": "A range selector sees every point of its range", "statement": "An instant query that is a selector with a range, such as cpu{source_id=\"a\"}[5m], answers for every combination of labels with one point for every stored envelope the selector asks for whose second began within the range before the query's time and which is not later than it, in their order, and with nothing else; a function of such a selector (count_over_time, sum_over_time, ...) is given just these points.", "quantifier": "every set of stored envelopes, plain selector, range, query time and function of the points", "why_tests_cant": "tests use one or two points that lie well inside the range; the borders of the buffer that the engine fills through the cache's iterators depend on every combination of times", "anchors": ["internal/promql/promql.go:LogCacheQuerier.Select", "internal/promql/promql.go:concreteSeriesIterator", "internal/promql/promql.go:PromQL.InstantQuery"]}
{"id": "C138", "title": "A stored value is returned to a client that queries for it", "statement": "A user of the client library who queries for a plain selector at some time, over HTTP or gRPC, gets for every combination of labels the value of the newest stored envelope of that metric, source and labels in the five minutes up to that time, with the time they gave, and with nothing else; a range query gives the values at its steps. A query that cannot be read is an error with the reason. FALSE for an envelope of exactly the time given (proved). Proved for times of whole seconds.", "quantifier": "every set of stored envelopes, plain selector, list of options, time, mapping of status codes", "why_tests_cant": "crosses the library, the gateway, the node and the engine, and two encodings of times", "anchors": ["pkg/client/client.go: PromQL, PromQLRange, PromQLRaw", "internal/gateway/gateway.go: listenAndServe, httpErrorHandler", "internal/promql/promql.go: InstantQuery, RangeQuery"]}
{"id": "C139", "title": "The HTTP interface means the same without the client library", "statement": "A request to read whose parameters are called start_time, end_time, limit, envelope_types, descending and name_filter, with decimal numbers, names of types and true or false, asks the cache for exactly that, missing ones being zero or empty. A query at /api/v1/query with the parameters query and time, or at /api/v1/query_range with query, start, end and step, asks the node for exactly these, and the answer is a JSON document in the format of Prometheus: status, data, resultType, result, metric, value and values, times in seconds with three decimals and values as decimal text, each the nearest to its number, or an error with its reason.", "quantifier": "every request, set of parameters in any order, result of the engine, error", "why_tests_cant": "every combination of parameters and every value; a change of both the writer and the reader is invisible to round trips", "anchors": ["pkg/rpc/logcache_v1/egress.pb.gw.go: request_Egress_Read_0", "pkg/rpc/logcache_v1/promql.pb.gw.go: request_PromQLQuerier_InstantQuery_0", "pkg/marshaler/marshaler.go: Marshal", "internal/gateway/gateway.go: listenAndServe, httpErrorHandler"]}
{"id": "C140", "title": "A Send returns when its data has been stored", "statement": "As api/v1/ingress.proto promises, when a Send returns without an error each of its envelopes is in the store of the nodes responsible for its source, beside everything that was there, unless the source is at its capacity.", "quantifier": "every cluster, routing tables, history of requests, deliveries, losses and table changes, request and source", "why_tests_cant": "the promise is about every interleaving of a request with the buffers between the nodes; a test sees the envelope a little later and cannot tell", "anchors": ["api/v1/ingress.proto: Ingress.Send", "internal/routing/ingress_reverse_proxy.go: Send", "internal/routing/batched_ingress_client.go: Send, write", "internal/cache/log_cache.go: setupRouting"]}
{"id": "C141", "title": "Puts, reads and prunes together behave like a sequential store", "statement": "Whatever Puts, reads and prunes run at the same time, the store behaves as a store that is given the same calls one by one: the stored envelopes, the answers of reads and the count, expiry, size and egress metrics are those of some order of the calls. That does not hold in general: a Put whose source a prune drops meanwhile is counted but can never be read, which no order of the calls explains. It holds of all runs in which no call waits while a prune removes envelopes.", "quantifier": "every run: any number of Puts, reads and prunes, every interleaving of their steps, every quantity a prune may ask for, every configuration with room for at least one envelope per source", "why_tests_cant": "the claim ranges over all interleavings of unboundedly many calls; the failing interleaving needs a prune to drop a source between two steps of a Put", "anchors": ["internal/cache/store/store.go: Put, Get, truncate, removeOldestEnvelope, insertOrSwap"]}
{"id": "C142", "title": "The client library reads from gateways of every version", "statement": "A Read over HTTP succeeds in choosing its path for whatever version a gateway reports: for a semantic version (three numbers in their usual notation, perhaps a pre-release and a build) it goes to /v1 before 2.0.0 (with the pre-releases of 2.0.0) and to /api/v1 from there on. FALSE for gateways that report anything else, in particular those built without a version, which report the empty text: every Read from them is an error (proved).", "quantifier": "all texts a gateway reports as its version; all uptimes, sources, options and answers", "why_tests_cant": "the set of texts is infinite; tests use a few well-formed versions", "anchors": ["pkg/client/client.go: getBaseApiPath, LogCacheVersion", "internal/gateway/gateway.go: handleInfoEndpoint", "cmd/gateway/config.go: buildVersion, LoadConfig"]}
{"id": "C143", "title": "A walk delivers a source however large its envelopes are", "statement": "A walk (or the read of data behind a query) over gRPC, of a source that does not change, ends with everything that is stored for the window, types and names asked for, whatever the sizes of the envelopes. True if the limit of the walk times the size of the largest envelope is within 4 MiB. FALSE in general (proved: when the next page is larger than a gRPC message every read of the walk fails from there on; a walk that always retries goes on for ever and delivers nothing more; a query gives up after five tries and is answered as if there were no data, without an error).", "quantifier": "all clusters at rest, entry nodes, configurations of a walk, contents and sizes of envelopes, back-offs, numbers of retries", "why_tests_cant": "needs large envelopes over a real connection; the tests of the walk have a stub as reader", "anchors": ["pkg/client/walk.go: Walk", "pkg/client/client.go: grpcRead", "internal/promql/data_reader/walking_data_reader.go: Read", "internal/routing/egress_reverse_proxy.go: Read"]}
{"id": "C144", "title": "Windows over a growing source skip nothing", "statement": "A Window over a source to which envelopes are added goes through time window by window; each window is walked only when it has been over for at least an interval; windows as wide as their distance together deliver every envelope from the first start on exactly once, in order, if every envelope can be read at the latest an interval after its timestamp. True for intervals of at least a second (and distinct timestamps or windows of at most 100 envelopes, walks without failed reads). FALSE for shorter ones (proved: with windows of half a second an envelope that can be read at once is thrown away as too new by the walk of its window and delivered by no other).", "quantifier": "all growing logs, delays of envelopes, times of ticks (dropped and late ones too), times of reads, pages, numbers of windows", "why_tests_cant": "depends on the clock at every tick and read; the tests have a stub as walker and one interval", "anchors": ["pkg/client/window.go: Window, BuildWalker", "pkg/client/walk.go: Walk"]}
{"id": "C145", "title": "A walk or a Window ends when its context ends", "statement": "A walk whose read fails when its context has ended returns at once and delivers nothing more. A Window returns when its context has ended. FALSE for Window (proved: it returns only when the visitor says so; with an ended context it calls the visitor at every tick with nothing, for ever).", "quantifier": "all walks and windows, back-offs, readers, numbers of ticks", "why_tests_cant": "that something never ends cannot be tested", "anchors": ["pkg/client/walk.go: Walk", "pkg/client/window.go: Window"]}
{"id": "C146", "title": "A walk with an end time ends", "statement": "A walk with an end time makes finitely many reads, however its reads fail and whatever they return: with the default back-off at most one more than the batches it delivers, with RetryBackoff(n) at most n per batch and n more, and never more batches than its window has nanoseconds. FALSE with AlwaysRetryBackoff, although the documentation says that the walk exits once its end time is reached (proved: over a source without an envelope in the very last nanosecond of the window it reads on for ever, long after the end time, without a failure).", "quantifier": "all readers that keep to the start time, sequences of failures and answers, windows, back-offs, numbers of retries", "why_tests_cant": "an upper bound for every sequence of answers, and reads without end, cannot be tested", "anchors": ["pkg/client/walk.go: Walk, RetryBackoff, AlwaysRetryBackoff", "pkg/client/examples/walker/main.go: main"]}
{"id": "C147", "title": "Senders of syslog do not disturb each other", "statement": "With several connections to the syslog server at once, what the server sends to log-cache is made up of what it would send with each connection alone, in the order of each, and the counters are the sums, however the octets of the senders and the handling of their messages mix. FALSE in two respects (proved): one well-formed message without a process id, on a connection of its own, ends the process and with it all other connections, whatever the server is doing; and one failed accept (for instance when file descriptors run out) leaves the process running but no later connection is ever served.", "quantifier": "all numbers of connections, streams of octets, cuts, times, orders in which connections are read and results handled, failures of sends", "why_tests_cant": "the interleavings of several connections are many; tests use one connection at a time", "anchors": ["internal/syslog/server.go: Start, handleConnection, parseListener, Stop", "cmd/syslog-server/main.go: main"]}
{"id": "C148", "title": "The status of a failed read or query says whose fault it was", "statement": "A read over HTTP is answered with 200 exactly if it is served; with a 4xx status if the request is the reason that it is not; with a 5xx status if the service is the reason. Through the auth proxy users who may read a source get the status of the gateway and all others 404. FALSE in three respects (proved): every read that is refused for what it asks (start after end, limit out of range, broken name filter) is answered with 500; while tokens cannot be looked up, all reads are answered with 404; and a query that cannot be parsed gets 400 from the proxy but 500 from the gateway.", "quantifier": "all requests, parameters, users, states of the store, routes and answers of other nodes", "why_tests_cant": "needs every combination of request, user and state of the service; the tests of the gateway have a stub as log cache", "anchors": ["internal/routing/local_store_reader.go: Read", "internal/routing/egress_reverse_proxy.go: Read", "pkg/rpc/logcache_v1/egress.pb.gw.go: request_Egress_Read_0", "internal/gateway/gateway.go: httpErrorHandler", "internal/auth/cf_auth_middleware.go: Middleware"]}
{"id": "C149", "title": "A query by the name of an app is answered from every app of that name", "statement": "A PromQL query for a source id is answered from the source of that id and from every app whose name it is, as far as the user may read them, and from no others; if one of these cannot be read, the query fails.", "quantifier": "every query, every set of apps in the Cloud Controller, every user, every order in which the ids are asked for, and every time at which the Cloud Controller does or does not answer", "why_tests_cant": "a test uses a few app names without separators and a Cloud Controller that answers; it cannot range over all names and outages", "anchors": ["internal/auth/capi_client.go: GetRelatedSourceIds", "internal/auth/cf_auth_middleware.go: Middleware", "README.md"]}
{"id": "C150", "title": "The meta endpoint has the documented format and content", "statement": "The answer of /api/v1/meta through the proxy is a JSON document with a field meta that has, for each source the caller may read and no other, count, oldestTimestamp and newestTimestamp as decimal strings, and expired if envelopes were pruned; the client library reads back exactly these numbers.", "quantifier": "every content of the log cache, every caller, every set of sources available to them", "why_tests_cant": "tests compare a document for a few sources; they cannot range over all ids, numbers and sets of available sources", "anchors": ["internal/auth/cf_auth_middleware.go: Middleware, onlyAuthorized", "pkg/client/client.go: Meta", "README.md"]}
{"id": "C151", "title": "Metrics of conforming senders arrive as they were sent", "statement": "Counters, gauges, events and timers sent over syslog in the form of RFC 5424, mixed in any way with log lines, are each stored with the source id, instance id, time, name and exact values of the sender (the 64-bit numbers and every float64), in order, counted once, without errors, whatever characters names and texts contain and however the network cuts the stream. Structured data never costs a message. The last part is FALSE (proved: a log line with tags or other structured data is lost and counted as invalid; the tags of a metric are never stored, and may cost the metric, depending on the order of a Go map; a log line with data named like eventSource is stored as an empty event).", "quantifier": "all mixtures of log lines and metrics, all names, units, texts and values, all orders of parameters, all ways the network cuts the stream", "why_tests_cant": "names may contain quotes, backslashes and brackets; numbers range over all of 64 bits and all of float64; the stream may be cut anywhere", "anchors": ["internal/syslog/server.go: parseListener, convertToEnvelope, convertCounter, convertGauge, convertEvent, convertTimer"]}
{"id": "C152", "title": "A node on its own keeps everything", "statement": "A node whose options name no other node stores all the data sent to it and forwards none of it, as documented for the standalone mode; options count as given last, and what no option sets has the documented default. FALSE for storing (proved: until a scheduler has assigned ranges every Send succeeds and stores nothing, and every Read is refused). Proved: it never forwards; it keeps an envelope exactly as often as its source is covered by the ranges assigned last, to whatever address; with a scheduler whose ranges contain every hash once, reads return the requested part of all that was sent.", "quantifier": "every list of options that names no other node, every history of Sends, range assignments and prunes, every map order, every read", "why_tests_cant": "A test gives a node one range and one envelope; the documented promise is about every history, including the one without a scheduler.", "anchors": ["internal/cache/log_cache.go:New", "internal/cache/log_cache.go:WithClustered", "internal/cache/log_cache.go:setupRouting", "internal/routing/routing_table.go:SetRanges", "internal/routing/ingress_reverse_proxy.go:Send", "cmd/log-cache/main.go:main"]}
{"id": "C153", "title": "Options of the libraries mean what they say", "statement": "Options given to a walk, a Window, a client, a scheduler, a nozzle, a syslog server, a gateway, an auth proxy, its CAPI and UAA clients or a node's proxy for reads take effect in whatever order they are given: of each kind the one given last counts and what no option sets has the documented default. Every read of a walk reaches the server, over HTTP and over gRPC, with the end time, limit, envelope types and name filter of the walk. The scheduler makes tasks that contain every 64-bit hash once, each with as many instances as the replication factor says. The client library reads from a gateway at the path of the version the gateway was given; lists of sources and meta information are given out again for exactly as long as the options say; in the auth proxy the access log comes before the authorization in whatever order the two are given.", "quantifier": "every list of options, every start time of a read, every hash", "why_tests_cant": "Options can be combined and ordered in unboundedly many ways.", "anchors": ["internal/gateway/gateway.go: NewGateway, WithGatewayVersion", "internal/auth/capi_client.go: NewCAPIClient, WithCacheExpirationInterval", "internal/cfauthproxy/cf_auth_proxy.go: NewCFAuthProxy, Start", "internal/routing/egress_reverse_proxy.go: WithMetaCacheDuration", "pkg/client/walk.go: Walk, WalkOption", "pkg/client/window.go: Window, WindowOption", "pkg/client/client.go: NewClient", "internal/scheduler/scheduler.go: NewScheduler, Start", "internal/nozzle/nozzle.go: NewNozzle", "internal/syslog/server.go: NewServer", "internal/promql/data_reader/walking_data_reader.go: Read"]}
{"id": "C154", "title": "What crashes of nodes lose and what they do not", "statement": "When a node of the cluster crashes and starts again, envelopes that another owner of the source holds are not lost: once the scheduler has given the node its ranges again, a Read of the source, entering at any node, returns all that clients ever sent for it. Precisely: an owner that stays up, and on whose way nothing is lost, returns all; an owner that crashed returns just what was sent since; a node without ranges refuses Reads.", "quantifier": "all clusters, tables, histories of Sends, deliveries, failed requests, new tables and crashes, all crash points", "why_tests_cant": "a crash can come between any two steps and any number of times; tests restart no node", "anchors": ["internal/cache/log_cache.go", "internal/routing/egress_reverse_proxy.go", "internal/routing/ingress_reverse_proxy.go", "internal/routing/batched_ingress_client.go"]}
{"id": "C155", "title": "A round of the scheduler makes the nodes agree on where every source belongs", "statement": "Whatever state the nodes are in, after crashes too, one round of the scheduler leaves every node with the same table, in which every source id belongs to exactly as many different nodes as the replication factor says, and to those that hold a range with its hash. FALSE when a node does not answer (proved: a node that misses the second listing of a round is in no table, so that ids it alone has belong to nobody; a node the new table does not reach keeps its old one and disagrees with the others); proved when all requests of the round get through and the orchestrator places the ranges; and, whatever the orchestrator does and whoever answers, that each table is exactly what the nodes that answered said they hold. A scheduler that is not the leader changes nothing.", "quantifier": "every list of nodes, every state of their agents and tables, every set of calls the orchestrator library may make, every pattern of nodes that answer, every source id", "why_tests_cant": "tests run the scheduler against two spies with fixed answers; the state of the nodes, the choices of the orchestrator and the failures of requests are unbounded", "anchors": ["internal/scheduler/scheduler.go: Start, setRemoteTables, convertWorkerState, comm", "internal/routing/orchestrator.go: OrchestratorAgent", "internal/routing/routing_table.go: SetRanges, Lookup"]}
{"id": "C156", "title": "A cluster recovers once its tables agree again", "statement": "However nodes crashed, envelopes were lost, stores pruned and tables differed before: from a time on at which all nodes look up a source at the same nodes, everything sent for it to any node is returned by every Read of it that enters at any node, in order and within its limit, together with nothing but some of what had been sent for it before; and one round of the scheduler that gets through brings that about, with as many owners as the replication factor says. Proved for sources whose equal times are spread out, while no node crashes and nothing of the source is lost from then on.", "quantifier": "every history of Sends, deliveries, losses, crashes and tables before, every continuation, source, entry node and read request", "why_tests_cant": "Universal over histories with crashes and over what follows them.", "anchors": ["internal/scheduler/scheduler.go: Start, setRemoteTables", "internal/routing/ingress_reverse_proxy.go: Send", "internal/routing/egress_reverse_proxy.go: Read", "internal/cache/log_cache.go: setupRouting"]}
{"id": "C157", "title": "What was sent for a source is what queries return, whichever node is asked", "statement": "When clients have sent metrics to a cluster and it has come to rest, a client that queries for a plain selector at any node gets, over HTTP and over gRPC, for every combination of labels the value of the newest envelope that was sent to any node, is asked for by the selector, and is from before the query's time and the five minutes before it (for a range query: the values of the envelopes that were sent, at each step); two nodes give the same answers.", "quantifier": "all histories of requests to all nodes of a cluster and of the network between them that end at rest, all sources, tables, nodes asked, selectors, query times, pages of the walks behind the query, orders of the maps in the messages", "why_tests_cant": "it spans every schedule of writes and forwarding, every assignment of sources to nodes and every paging of the reads behind a query; a test sees one history, one node and one query", "anchors": ["internal/promql/promql.go:InstantQuery", "internal/promql/promql.go:RangeQuery", "internal/promql/data_reader/walking_data_reader.go:Read", "pkg/client/walk.go:Walk", "internal/routing/egress_reverse_proxy.go:Read", "internal/routing/ingress_reverse_proxy.go:Send", "internal/cache/store/store.go:Get", "internal/cache/log_cache.go:setupRouting"]}
{"id": "C158", "title": "A user's query returns what was sent of the sources they may read", "statement": "A user with a valid token who asks the auth proxy over HTTP for a plain selector gets, for every combination of labels, the value of the newest envelope that was sent and that the selector asks for: of the sources the selector names and the apps that have these names, all those and only those the user may read, whichever node the gateway asks. If the user may read nothing of one of the named sources, they get an error and no data. A query that cannot be parsed or names no source is turned down with the reason.", "quantifier": "every user, token, authorization, list of apps and plain selector, every history of sends to a cluster that comes to rest for the sources the user may see, every node asked, every time, range and step, and every answer of the nodes for refused queries", "why_tests_cant": "the answer depends on the rewriting of the query, on the escaping of the request on two hops, on the routing of every read and on the whole history of sends; tests check each part with a few fixed queries", "anchors": ["internal/auth/cf_auth_middleware.go:Middleware", "internal/promql/promql.go:ReplaceSourceIdSets", "internal/cfauthproxy/cf_auth_proxy.go:reverseProxy", "internal/gateway/gateway.go:listenAndServe", "pkg/client/client.go:PromQL", "pkg/client/client.go:PromQLRange", "pkg/client/client.go:PromQLRaw"]}
{"id": "C159", "title": "The client library asks for tokens with its own credentials", "statement": "A client with a configured user asks the Oauth2 server for a token with the password grant: a POST of a form to /oauth/token with the client's id and secret and the user's name and password, whatever characters these have, and nothing else. One without a user asks with the client grant and logs in with its id and secret; the secret is not part of the form. If options are repeated the last one counts. The request the user wants to make is sent with the token type and the token of the answer if its status is 200 and it can be read, and otherwise it is not sent: without a token there is an error.", "quantifier": "every address, id, secret, user and list of options; every answer of the Oauth2 server", "why_tests_cant": "tests use ids and secrets without special characters and answers that have a token", "anchors": ["pkg/client/oauth2_http_client.go: NewOauth2HTTPClient, WithOauth2HTTPUser, WithOauth2HTTPClient, getToken, getClientToken, getUserToken, doTokenRequest"]}
{"id": "C160", "title": "Answers of CAPI and UAA and the contents of tokens are read as they were written", "statement": "A page of CAPI gives all its resources and the address of its next page, whatever other fields it has and in whatever order; a listing whose pages are all well-formed gives the resources of all pages; an id becomes available only if an answer with status 200 lists it. After a refresh answered with well-formed keys the auth proxy keeps exactly these keys, and a new key was offered by an answer with status 200. A token with a verified signature lets its user in exactly until the second written in it, as an administrator exactly if one of the two scopes is written in it. A Read that is sent on for anyone else was asked for with a token with which CAPI listed the source, for this Read or less than the expiration interval before. FALSE for the most distant expiry times (counterexample proved: a token with the largest int64 as expiry is refused as expired); proved for times of up to 15 digits.", "quantifier": "every text, every sequence of pages, every set of keys, every token", "why_tests_cant": "Universal over texts of unbounded size, with fields in any order and any number of pages.", "anchors": ["internal/auth/capi_client.go: doResourceRequest, doPaginatedResourceRequest, AvailableSourceIDs", "internal/auth/uaa_client.go: RefreshTokenKeys, unmarshalTokenKeys, decodeToken, Read"]}
{"id": "C161", "title": "Requests go to the configured addresses", "statement": "Requests of the client library (also those for tokens) and of the auth proxy's clients of CAPI and UAA go to the scheme, the host and under the path of the address they were given. FALSE (proved): the client library and the UAA client leave the path of the address out, so that an auth proxy whose gateway has a path in its address sends Reads on under that path but asks the gateway for meta information without it; with an address of the form name:port, which nodes and schedulers take, nothing is sent at all; a slash at the end of CAPI's address is doubled. Proved: with an address scheme://host[:port][/path] of HTTP or HTTPS, exactly where every request goes.", "quantifier": "every address of letters, digits and . - _ : /, every path of the API", "why_tests_cant": "unboundedly many addresses; the tests use addresses of test servers, which have neither a path nor a slash at the end", "anchors": ["pkg/client/client.go: Read, Meta, LogCacheVersion, PromQL", "pkg/client/oauth2_http_client.go: getClientToken, getUserToken", "internal/auth/capi_client.go: AvailableSourceIDs", "internal/auth/uaa_client.go: NewUAAClient, RefreshTokenKeys", "cmd/cf-auth-proxy/main.go: main"]}
{"id": "C162", "title": "The life of the syslog server", "statement": "The syslog server takes connections from when it is started until it is stopped, and none afterwards; a connection is served as long as it sends a message at least once per idle timeout, and closed otherwise. Proved: once the server has told its address, Stop is final, however calls are interleaved; a message of a connection is handled exactly if less than the idle timeout has passed since the one before, and the connection is closed for idleness only after that. FALSE (proved): a Stop before the server has told its address stops nothing; a single failed Accept ends the server for good, while the process goes on; Stop leaves open connections alone, and they go on delivering messages.", "quantifier": "all idle timeouts, all interleavings of the starting server, of Stop and Addr calls and of the connections, at all times", "why_tests_cant": "The tests start one server, stop it at the end and wait for one idle connection; they see one interleaving.", "anchors": ["internal/syslog/server.go: Start, Stop, Addr, handleConnection, setReadDeadline, parseListenerForConnection", "cmd/syslog-server/main.go: main"]}
{"id": "C163", "title": "Closing a node", "statement": "A node that is closed finishes the requests that have begun, lets no other begin, and does not end its process with a failure. Proved for every interleaving of the steps of any number of Close calls with the starting server and with requests; the process crashes in just two cases: the listener failed while nobody was closing, or (FALSE, proved) Close was called before Start.", "quantifier": "all interleavings of Start, the serving goroutine, any number of Close calls and any requests", "why_tests_cant": "A test closes one node at one moment; the race between the flag, the stop and the check in the serving goroutine needs all interleavings.", "anchors": ["internal/cache/log_cache.go: Start, Close, setupRouting"]}
{"id": "C164", "title": "A user's walk over HTTP delivers all that was sent", "statement": "When clients have sent to a cluster and it has come to rest, a user who may read a source and walks through it over HTTP with an end time, each page going as bytes through the auth proxy, the gateway and whatever nodes, gets every envelope of the source that the walk asks for, in the order of time, once each and as it was sent, and no read fails. FALSE (proved) when a page does not fit in a grpc message: then every read fails from there on and the visitor gets nothing more, whatever the back-off. Proved when the envelopes have at most B bytes and limit * (B + 5) + 5 is at most 4 MiB.", "quantifier": "every history of requests and deliveries that ends at rest, every table, entry node per page, walk configuration, back-off, user and source id the routers let through", "why_tests_cant": "the pages of a walk depend on the content of the store and each page may enter at another node; a test walks over a few envelopes of one server", "anchors": ["pkg/client/walk.go: Walk", "pkg/client/client.go: Read", "internal/auth/cf_auth_middleware.go: Middleware", "internal/gateway/gateway.go: NewGateway", "internal/routing/egress_reverse_proxy.go: Read", "internal/routing/local_store_reader.go: Read"]}
{"id": "C165", "title": "What Meta tells a user is what was sent", "statement": "When clients have sent to a cluster and it has come to rest, a user who asks for Meta through the auth proxy gets, for each source they may see (all, for an administrator), the number of envelopes that were sent for it and the times of the oldest and the newest of them, with nothing expired, if an owner of the source answers the node that is asked; and no source that they may not see or for which nothing was sent. This holds whichever node is asked and whatever the order of the maps in the messages. Without a valid token there is no answer. FALSE when all that is told does not fit in a grpc message (proved: two sources with ids of 3 MiB, each sent in a request that is taken, leave nobody with an answer, not even of other sources); proved to fit as long as the number of sources times the length of their ids and 60 bytes is below 4 MiB.", "quantifier": "every history of requests and deliveries that ends at rest, every table, node asked, pattern of nodes that answer, user, set of available sources, order of maps", "why_tests_cant": "unboundedly many histories, sources and patterns of answers; tests use spies with a fixed answer", "anchors": ["internal/routing/local_store_reader.go: Meta", "internal/cache/store/store.go: Meta, Put", "internal/routing/egress_reverse_proxy.go: Meta, remoteMeta", "internal/gateway/gateway.go: NewGateway", "internal/auth/cf_auth_middleware.go: Middleware, onlyAuthorized", "pkg/client/client.go: Meta"]}
{"id": "C166", "title": "What Meta tells a user at any time was true a short while ago", "statement": "Whatever happens in the cluster, a user with a valid token who asks for Meta through the auth proxy gets only sources they may see, and each number in the answer was true in the store of one of the nodes within the last two cache periods and the times of the two fetches before the node answered (one cache period and one fetch if only the node that is asked has held the source); and every source they may see that a node has held for all of that time is listed, as long as no request between the nodes failed. This holds for answers that fit in a grpc message, in whatever order the maps are written.", "quantifier": "all histories of cluster wide and local Meta requests with their caches, all stores that change with time, tokens and orders of maps", "why_tests_cant": "tests ask once, with stores that stand still", "anchors": ["internal/routing/egress_reverse_proxy.go:67-160", "internal/auth/cf_auth_middleware.go:184-210", "pkg/client/client.go:242-289", "internal/gateway/gateway.go:133-158"]}
{"id": "C167", "title": "What a user reads while nodes crash and recover", "statement": "After any history of a cluster, with nodes that crash, lose what they hold and are given ranges again, that prune their stores at any time and by any amount, and with requests between nodes that fail: what a user with the right to read a source gets over HTTP is part of what was sent for that source and matches the request, each envelope as it was sent and no more often than it was sent. This holds for whatever request anybody makes, with any path, parameters and token: if it is answered as a Read, the user may read the source (or the one whose id is followed by a colon, see C75). From a time on at which all nodes look the source up at the same nodes and nothing more is lost or pruned, the user gets all that matches of what was sent since then, in the order of time, at whatever node the request enters, with nothing else but some of what was sent before. FALSE that an envelope that was taken with an OK is always among what the user gets, even if the node that owns it stays up and no request fails (proved: the node that took it crashes before it passes it on).", "quantifier": "all histories of Sends, deliveries, losses, new tables, crashes and prunings, all requests of users, nodes at which they enter, orders of maps", "why_tests_cant": "tests do not crash nodes in the middle of histories and read through all layers after that", "anchors": ["internal/cache/log_cache.go:151-183", "internal/routing/ingress_reverse_proxy.go:41-69", "internal/cache/store/store.go:166-282", "internal/routing/egress_reverse_proxy.go:48-65", "internal/auth/cf_auth_middleware.go:84-105", "internal/gateway/gateway.go:133-158", "pkg/client/client.go:114-196"]}
{"id": "C168", "title": "What Meta tells a user while nodes crash and recover", "statement": "After any history of Sends, deliveries, losses on the way, new tables, crashes, and stores pruned at any time and by any amount, a user who gets an answer to Meta through the auth proxy has a valid token, and each source in the answer is one they may see and for which something was sent; no more envelopes are counted, with those expired, than were sent for it, the newest time is that of an envelope that was sent (or 0), and the oldest is that of one that was sent or at most the store's shift of equal times later. With a valid token there is an answer if it fits in a grpc message. From a time on at which all nodes look the source up at the same nodes and nothing more is lost or pruned, a user who may see the source is told of all that was sent for it since then, with nothing but some of what was sent before. FALSE without more (proved): when a source has moved, with no crash and nothing lost, and all nodes answer, every user can be told only of what the former owner holds, whichever node is asked. Proved if an owner is heard and no other node holds any of the source.", "quantifier": "all histories of Sends, deliveries, losses, new tables, crashes and prunings, nodes asked, patterns of nodes that answer, users, sets of available sources, orders of maps", "why_tests_cant": "tests merge fixed answers of spies; none moves a source or crashes a node and then asks through all layers", "anchors": ["internal/routing/local_store_reader.go: Meta", "internal/cache/store/store.go: Meta, Put", "internal/routing/egress_reverse_proxy.go: Meta, remoteMeta", "internal/cache/log_cache.go:151-183", "internal/auth/cf_auth_middleware.go: Middleware, onlyAuthorized", "pkg/client/client.go: Meta"]}
{"id": "C169", "title": "What queries return while nodes crash", "statement": "Whatever happens to the nodes before a query and while it is answered (Sends, deliveries, losses on the way, new tables, crashes, pruned stores, failed reads, also between two pages of one read): the query gets an error, or every value in its answer is that of an envelope that was sent, for a source the query names, with the metric and the labels asked for, with the labels and the value of that one envelope, from before the end of the query and from the five minutes before the time at which the value is shown (by the beginning of its second); and a user who asks through the auth proxy gets values only of sources they may read. Nothing is invented, mixed from two envelopes, or of another source, however much is missing. From a time on at which all nodes look the sources up at the same nodes and nothing more is lost or pruned, the answer shows all that was sent since then, as it would from a log with all of that and some of what was sent before, at whatever node the query is asked. Proved for plain selectors and labels that do not collide, for instant and range queries, over grpc, over HTTP and through the auth proxy.", "quantifier": "every history of Sends, deliveries, losses, new tables, crashes and prunings, every way the cluster changes between the pages of a read, every node asked, every plain selector, time, range and step, every user, token, authorization and list of apps", "why_tests_cant": "the cluster can change between any two of the reads of a query, and crash points and histories are unbounded; tests read from one store that does not change", "anchors": ["internal/promql/promql.go: Select, InstantQuery, RangeQuery", "pkg/client/walk.go: Walk", "internal/promql/data_reader/walking_data_reader.go: Read", "internal/routing/egress_reverse_proxy.go: Read", "internal/auth/cf_auth_middleware.go: Middleware", "internal/cfauthproxy/cf_auth_proxy.go: reverseProxy", "internal/gateway/gateway.go: listenAndServe"]}
{"id": "C170", "title": "What a user's walk delivers while nodes crash", "statement": "A user walks through a source they may read, over HTTP, with or without an end time, while anything happens to the cluster before the walk and between any two of its reads (Sends, deliveries, losses on the way, new tables, crashes, pruned stores, failed reads, each read at another node): every batch that the visitor gets shows envelopes that were sent for the source, none from before the start of the walk, as they were sent (but for what the name filter takes out), of the types asked for, and none of them more often than it was sent. If the equal times are spread out, the same holds of the whole walk: what it delivers from its first batch to its last is in the order of time and within the range of the walk, and no envelope comes twice, however often it failed and began again at another node. From a time on at which all nodes look the source up at the same nodes and nothing more is lost or pruned, a walk of which a read is answered delivers all that it asks for of what was sent since then, with nothing before the last of it but some of what was sent before, if a page has room for the source. With smaller pages, too, a walk that ends there has delivered all that it asks for of what was sent since then and whose time no other envelope of the source has. FALSE (proved) if equal times are not spread out: from a store to which nothing happens, a walk delivers an envelope twice and out of order.", "quantifier": "every history of Sends, deliveries, losses, new tables, crashes and prunings, every way the cluster changes between the reads of a walk, every node asked, every sequence of failures, every back-off, every walk, user, token and authorization", "why_tests_cant": "the cluster can change between any two reads of a walk that has no bound, and crash points and histories are unbounded; tests walk through a scripted reader", "anchors": ["pkg/client/walk.go: Walk", "pkg/client/client.go: Read", "internal/routing/egress_reverse_proxy.go: Read", "internal/cache/store/store.go: Get", "internal/auth/cf_auth_middleware.go: Middleware", "internal/cfauthproxy/cf_auth_proxy.go: reverseProxy", "internal/gateway/gateway.go: listenAndServe"]}
