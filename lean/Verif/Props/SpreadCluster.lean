import Verif.Props.Spread
import Verif.Props.Reader
import Verif.Props.Forwarding
/-!
# Reading one's writes when some envelopes have the same time (C26, C35)
-/
namespace LogCache
open Spec

/-- Below capacity, without prunes, with equal times spread out and no more than `maxFudge`
envelopes of one time, exactly what was put is stored. -/
theorem spread_storage {cfg : Config} (hc : 1 ≤ cfg.maxPerSource) {ops : List Op} {st : Store}
    (h : Run (newStore cfg) ops st) (hn : NoPrune ops) (src : Str)
    (hsp : Spread (putsOf ops src)) (hfew : ∀ ts, howMany (putsOf ops src) ts ≤ cfg.maxFudge)
    (hlen : ((putsOf ops src).length : Int) ≤ cfg.maxPerSource) :
    (st.envelopes src).Perm (putsOf ops src) := by
  revert hn hsp hfew hlen
  refine run_induct hc (P := fun ops st => NoPrune ops → Spread (putsOf ops src) →
    (∀ ts, howMany (putsOf ops src) ts ≤ cfg.maxFudge) →
    ((putsOf ops src).length : Int) ≤ cfg.maxPerSource → (st.envelopes src).Perm (putsOf ops src)) ?_ ?_ h
  · intro _ _ _ _; exact List.Perm.refl _
  · intro ops st op st' hr hi hcfg ih hv hx hn hsp hfew hlen
    have hn' : NoPrune ops := fun o ho => hn o (by simp [ho])
    rw [putsOf_append] at hsp hlen hfew ⊢
    have ih := ih hn' (spread_prefix hsp) (fun ts => by have := hfew ts; rw [howMany_append] at this; omega)
      (by rw [List.length_append] at hlen; omega)
    cases op with
    | put now s e =>
      rw [putsOf_put] at hsp hlen hfew ⊢
      by_cases hs : s = src
      · subst hs
        rw [if_pos rfl] at hsp hlen hfew ⊢
        have hf := hfew e.timestamp
        rw [howMany_append] at hf
        have h1 : howMany [e] e.timestamp = 1 := by simp [howMany]
        have hp := C07_spread_partial hc hr hsp (by omega) hx
        rw [List.length_append, List.length_singleton] at hlen
        rw [if_neg (by rw [ih.length_eq]; omega)] at hp
        exact hp.trans ((ih.cons e).trans (List.perm_append_singleton _ _).symm)
      · rw [if_neg hs, List.append_nil]
        obtain ⟨f, hf⟩ := put_spec hi.idx hx
        unfold Store.envelopes at ih ⊢
        rw [entries_other hf (fun h => hs h.symm)]; exact ih
    | truncate now mc o =>
      have := hn _ (by simp : Op.truncate now mc o ∈ ops ++ [Op.truncate now mc o])
      cases this
    | get s a =>
      simp only [Op.exec, Option.some.injEq] at hx
      subst hx
      rw [putsOf_get, List.append_nil]
      unfold Store.envelopes at ih ⊢
      rw [entries_getState]; exact ih

/-- An accepted Read for known types is a `get` with the arguments the request says. -/
theorem read_as_get (compile : Str → Option (Str → Bool)) (now : Int) (st : Store) (req : ReadRequest)
    (hk : ∀ n, EType.other n ∉ req.types) :
    (∃ err, localRead compile now st req = some (.error err)) ∨
    ∃ a res, localRead compile now st req = some (.ok res) ∧ get st req.sourceId a = some res ∧
      a.limit = (if req.limit = 0 then 100 else req.limit) ∧ a.descending = req.descending ∧
      ∀ X, answer a.start a.stop a.types a.nameFilter X =
        ((X.filter (inWindow req.start (if req.stop = 0 then now else req.stop))).filterMap
          (project (if req.nameFilter = [] then none else compile req.nameFilter))).filter
          (fun e => decide (∀ t ∈ req.types, t = .any) || decide (∃ t ∈ req.types, kind e = some t)) := by
  cases ha : readArgs compile now req with
  | error e => left; exact ⟨e, by unfold localRead; rw [ha]⟩
  | ok a =>
    right
    have hfields : a.start = req.start ∧ a.stop = (if req.stop = 0 then now else req.stop) ∧
        a.limit = (if req.limit = 0 then 100 else req.limit) ∧
        a.descending = req.descending ∧ a.types = requestedTypes req.types ∧
        a.nameFilter = (if req.nameFilter = [] then none else compile req.nameFilter) := by
      unfold readArgs at ha
      split at ha
      · cases ha
      · split at ha
        · cases ha
        · split at ha
          · cases ha
          · simp only at ha
            split at ha
            · rename_i hnf
              split at ha
              · cases ha
              · rename_i m hm
                cases ha
                exact ⟨rfl, rfl, rfl, rfl, rfl, by simp [hnf, hm]⟩
            · rename_i hnf
              cases ha
              refine ⟨rfl, rfl, rfl, rfl, rfl, ?_⟩
              simp at hnf; simp [hnf]
    obtain ⟨f1, f2, f3, f5, ft, f6⟩ := hfields
    have hknown : ∀ ts, a.types = some ts → ∀ n, EType.other n ∉ ts := by
      intro ts hts n hm
      rw [ft] at hts
      unfold requestedTypes at hts
      simp only at hts
      split at hts
      · cases hts
      · cases hts; exact hk n (List.mem_filter.1 hm).1
    have hty : typeOk a.types = fun e => (decide (∀ t ∈ req.types, t = .any) ||
                decide (∃ t ∈ req.types, kind e = some t)) := by
      funext e
      have := C25_any compile now req ha e
      cases hb : typeOk a.types e with
      | true => rw [hb] at this; simpa using this.1 rfl
      | false =>
        rw [hb] at this
        cases hb2 : (decide (∀ t ∈ req.types, t = EType.any) ||
            decide (∃ t ∈ req.types, kind e = some t)) with
        | false => rfl
        | true => have := this.2 (by simpa using hb2); cases this
    obtain ⟨res, hres⟩ := C02_read_total st req.sourceId a hknown
    refine ⟨a, res, by unfold localRead; rw [ha]; simp only [hres], hres, f3, f5, fun X => ?_⟩
    unfold answer
    rw [hty, f1, f2, f6]

/-- End to end through the Read API when only the source that is read has its equal times
spread out, whatever the times of other sources: an accepted request returns a prefix of the
envelopes that lie in the window and match, in the requested order, all of them or at least
`limit`. Without prunes, below capacity and with no more than `maxFudge` of one time these are
all that were ever put. -/
theorem C26_spread {cfg : Config} (hc : 1 ≤ cfg.maxPerSource) {ops : List Op} {st : Store}
    (h : Run (newStore cfg) ops st) {src : Str} (hs : Spread (putsOf ops src)) :
    (st.envelopes src).Pairwise (fun x y => x.timestamp ≤ y.timestamp) ∧
    (NoPrune ops → (∀ ts, howMany (putsOf ops src) ts ≤ cfg.maxFudge) →
      ((putsOf ops src).length : Int) ≤ cfg.maxPerSource → (st.envelopes src).Perm (putsOf ops src)) ∧
    ∀ compile now (req : ReadRequest), req.sourceId = src → (∀ n, EType.other n ∉ req.types) →
      (∃ err, localRead compile now st req = some (.error err)) ∨
      ∃ res, localRead compile now st req = some (.ok res) ∧
        ∃ all, all = (((if req.descending then (st.envelopes src).reverse else st.envelopes src).filter
              (inWindow req.start (if req.stop = 0 then now else req.stop))).filterMap
              (project (if req.nameFilter = [] then none else compile req.nameFilter))).filter
              (fun e => decide (∀ t ∈ req.types, t = .any) || decide (∃ t ∈ req.types, kind e = some t)) ∧
          res <+: all ∧ (res = all ∨ (if req.limit = 0 then 100 else req.limit) ≤ (res.length : Int)) := by
  refine ⟨near_ordered (spread_near hc h src hs) hs (idxEntries_sorted (run_inv hc h).1.idx src),
    fun hn hfew hlen => spread_storage hc h hn src hs hfew hlen, ?_⟩
  intro compile now req hsrc hk
  subst hsrc
  rcases read_as_get compile now st req hk with he | ⟨a, res, h1, h2, h3, h4, h5⟩
  · exact Or.inl he
  · right
    obtain ⟨-, g2, g3⟩ := C03_spread_partial hc h hs h2
    rw [h5, h3] at g3
    rw [h5] at g2
    unfold readOrder at g2 g3
    rw [h4] at g2 g3
    exact ⟨res, h1, _, rfl, g2, g3⟩

theorem howMany_perm {l l' : List Envelope} (h : l.Perm l') (ts : Int) : howMany l ts = howMany l' ts :=
  (h.filter _).length_eq

theorem spread_perm {l l' : List Envelope} (h : l.Perm l') (hs : Spread l) : Spread l' := by
  intro x hx y hy hlt
  rw [← howMany_perm h]
  exact hs x (h.mem_iff.2 hx) y (h.mem_iff.2 hy) hlt

/-- Read your writes, with equal times: as `C35_read_your_writes`, but only the source that is
read must have its equal times spread out, with no more than `maxFudge` of one time. A request
whose limit leaves room for all of the source is answered with the requested part of all that
clients sent for it, in the order of time; with a smaller limit with a first part of that, of at
least `limit` envelopes if that is not all. -/
theorem C35_spread {cfg : Config} (hc : 1 ≤ cfg.maxPerSource) {n : Nat}
    {L : Str → List Nat} {evs : List CEvent} {c : Cluster}
    (h : CRun (newCluster cfg n (fun _ => L)) evs c) (hr : Reliable evs)
    (hg : ∀ j req, CEvent.client j req ∈ evs → req.localOnly = false)
    (hq : ∀ j i, c.queue j i = []) {src : Str} (hLn : (L src).Nodup) (hL : L src ≠ [])
    (hs : Spread (clientSent evs src)) (hfew : ∀ ts, howMany (clientSent evs src) ts ≤ cfg.maxFudge)
    (hcap : ((clientSent evs src).length : Int) ≤ cfg.maxPerSource) (j : Nat) :
    (∃ hops r, ReadAt c.lk src j hops r) ∧
    ∀ hops r, ReadAt c.lk src j hops r → hops ≤ 1 ∧ ∃ i, r = some i ∧ i ∈ L src ∧
      ∃ log : List Envelope, log.Perm (clientSent evs src) ∧
        log.Pairwise (fun x y => x.timestamp ≤ y.timestamp) ∧
        ∀ compile now (req : ReadRequest), req.sourceId = src → (∀ k, EType.other k ∉ req.types) →
          (∃ err, localRead compile now (c.store i) req = some (.error err)) ∨
          ∃ res, localRead compile now (c.store i) req = some (.ok res) ∧
            ∃ all, all = (((if req.descending then log.reverse else log).filter
                (inWindow req.start (if req.stop = 0 then now else req.stop))).filterMap
                (project (if req.nameFilter = [] then none else compile req.nameFilter))).filter
                (fun e => decide (∀ t ∈ req.types, t = .any) || decide (∃ t ∈ req.types, kind e = some t)) ∧
              res <+: all ∧
              (((clientSent evs src).length : Int) < (if req.limit = 0 then 100 else req.limit) → res = all) ∧
              (res = all ∨ (if req.limit = 0 then 100 else req.limit) ≤ (res.length : Int)) := by
  obtain ⟨hn, hlk⟩ := crun_fixed h hr
  rw [hlk]
  refine ⟨readAt_total L src j, ?_⟩
  intro hops r hread
  rcases readAt_agree hread with ⟨h1, _, _⟩ | ⟨i, hi, rfl, hh, _⟩
  · exact absurd h1 hL
  refine ⟨hh, i, rfl, hi, ?_⟩
  obtain ⟨ops, hrun, hnp, hputs⟩ := crun_store h hr i
  have hpend : pending c i = [] := by
    unfold pending
    simp [hq]
  have hcons := crun_conserve h hr i
  rw [hpend, List.append_nil] at hcons
  have hp : (putsOf ops src).Perm (clientSent evs src) := by
    rw [hputs]
    refine (hcons.filter _).trans ?_
    rw [destined_src L i evs hg src]
    have := List.nodup_iff_count.1 hLn i
    have := List.count_pos_iff.2 hi
    rw [show (L src).count i = 1 by omega, flatMap_replicate_one]
  obtain ⟨h1, h2, h3⟩ := C26_spread hc hrun (spread_perm hp.symm hs)
  have hperm := h2 hnp (fun ts => by rw [howMany_perm hp]; exact hfew ts) (by rw [hp.length_eq]; exact hcap)
  refine ⟨(c.store i).envelopes src, hperm.trans hp, h1, ?_⟩
  intro compile now req hsrc hk
  rcases h3 compile now req hsrc hk with he | ⟨res, g1, all, g2, g3, g4⟩
  · exact Or.inl he
  · refine Or.inr ⟨res, g1, all, g2, g3, ?_, g4⟩
    intro hroom
    rcases g4 with g4 | g4
    · exact g4
    · exfalso
      have hlen : all.length ≤ (clientSent evs src).length := by
        rw [g2, ← (hperm.trans hp).length_eq]
        refine Nat.le_trans (List.length_filter_le ..) (Nat.le_trans (List.length_filterMap_le ..)
          (Nat.le_trans (List.length_filter_le ..) ?_))
        split <;> simp
      have := g3.length_le
      omega

/-- Node 0 receives two envelopes of one time and a later one, and passes them on to the owner,
which returns them all. -/
example : ∃ (c : Cluster) (evs : List CEvent),
    CRun (newCluster { maxPerSource := 5 } 2 (fun _ _ => [1])) evs c ∧ Reliable evs ∧
    (∀ j req, CEvent.client j req ∈ evs → req.localOnly = false) ∧ (∀ j i, c.queue j i = []) ∧
    clientSent evs [] = [logAt 3 "p", logAt 5 "r", logAt 3 "q"] ∧ Spread (clientSent evs []) ∧
    (∀ ts, howMany (clientSent evs []) ts ≤ 4000) ∧
    localRead (fun _ => none) 9 (c.store 1) { sourceId := [] } = some (.ok [logAt 3 "p", logAt 3 "q", logAt 5 "r"]) := by
  refine ⟨_, [] ++ [.client 0 { envelopes := some [logAt 3 "p", logAt 5 "r", logAt 3 "q"] }] ++
    [.deliver 0 1 [logAt 3 "p", logAt 5 "r", logAt 3 "q"]],
    CRun.snoc (CRun.snoc (CRun.nil _) (.client (by decide)
      ⟨fun _ => true, _, _, .proxied _ rfl _ rfl [(1, [logAt 3 "p", logAt 5 "r", logAt 3 "q"])] (by decide), .nil _, rfl⟩))
      (.deliver (rest := []) (by decide) (by decide) (by decide) (by decide)
        ⟨fun _ => true, _, _, .localOnly _ rfl, .cons 0 rfl (.cons 0 rfl (.cons 0 rfl (.nil _))), rfl⟩), ?_, ?_, ?_, by decide,
    by unfold Spread; decide, ?_, by rfl⟩
  · intro ev hev
    simp at hev
    rcases hev with rfl | rfl <;> trivial
  · intro j req hev
    simp at hev
    rw [hev.2]
  · intro j i
    simp only [newCluster]
    by_cases h1 : j = 0 <;> by_cases h2 : i = 1 <;> by_cases h3 : j = 1 <;> by_cases h4 : i = 0 <;>
      simp_all [sentTo]
    all_goals (intro h; exact absurd h.symm h2)
  · intro ts
    exact Nat.le_trans (List.length_filter_le ..) (by decide)

end LogCache
