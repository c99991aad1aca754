import Verif.Spec.MetaEnd
import Verif.Props.SpreadEnd
import Verif.Props.ProxyMeta
import Verif.Props.WalkGrpc

/-!
# What a user learns from Meta (C165)
-/

namespace LogCache
open Spec

/-! ## One store -/

/-- `NewestTimestamp` is the time of something put, or 0. -/
theorem newest_put {cfg : Config} (hc : 1 ≤ cfg.maxPerSource) {ops : List Op} {st : Store}
    (h : Run (newStore cfg) ops st) : ∀ src s, idxLoad st.index src = some s →
      (s.info.newest = 0 ∨ ∃ e ∈ putsOf ops src, e.timestamp = s.info.newest) := by
  refine run_induct hc (P := fun ops st => ∀ src s, idxLoad st.index src = some s →
      (s.info.newest = 0 ∨ ∃ e ∈ putsOf ops src, e.timestamp = s.info.newest)) ?_ ?_ h
  · intro src s hl
    cases hl
  · intro ops st op st' hr hi hcfg ih hv hx src s hl
    rw [putsOf_append]
    cases op with
    | put now s' e =>
      obtain ⟨f, hf⟩ := put_spec hi.idx hx
      by_cases hs : src = s'
      · subst hs
        obtain ⟨g', s2, hidx, hins, -⟩ := hf.index
        rw [hidx, idxLoad_store_same] at hl
        injection hl with hl
        subst hl
        rw [hins.newest, putsOf_put, if_pos rfl]
        split
        · exact .inr ⟨e, by simp, rfl⟩
        · unfold getOrInit
          cases hl : idxLoad st.index src with
          | none => exact .inl rfl
          | some s0 =>
            rcases ih src s0 hl with h0 | ⟨e', he', ht⟩
            · exact .inl h0
            · exact .inr ⟨e', List.mem_append_left _ he', ht⟩
      · rw [hf.other src hs] at hl
        rcases ih src s hl with h0 | ⟨e', he', ht⟩
        · exact .inl h0
        · exact .inr ⟨e', List.mem_append_left _ he', ht⟩
    | truncate now mc o =>
      obtain ⟨s0, h0, -, h2⟩ := (truncate_spec hi.idx hv hx).kept src s hl
      rw [h2]
      rcases ih src s0 h0 with h0 | ⟨e', he', ht⟩
      · exact .inl h0
      · exact .inr ⟨e', List.mem_append_left _ he', ht⟩
    | get src' a =>
      have hst : st'.index = st.index := by
        simp only [Op.exec, Option.some.injEq] at hx
        rw [← hx]
        unfold getState
        split
        · rfl
        · split <;> rfl
      rw [hst] at hl
      rcases ih src s hl with h0 | ⟨e', he', ht⟩
      · exact .inl h0
      · exact .inr ⟨e', List.mem_append_left _ he', ht⟩

/-- `OldestTimestamp` is the smallest time of all that was put, if nothing had to make room. -/
theorem oldest_put {cfg : Config} (hc : 1 ≤ cfg.maxPerSource) {ops : List Op} {st : Store}
    (h : Run (newStore cfg) ops st) (hn : NoPrune ops) (src : Str)
    (hlen : ((putsOf ops src).length : Int) ≤ cfg.maxPerSource) :
    (st.entries src).length ≤ (putsOf ops src).length ∧
    (∀ e ∈ putsOf ops src, ∃ k ∈ keys (st.entries src), k ≤ e.timestamp) ∧
    ∀ k ∈ keys (st.entries src), ∃ e ∈ putsOf ops src, e.timestamp ≤ k := by
  revert hn hlen
  refine run_induct hc (P := fun ops st => NoPrune ops → ((putsOf ops src).length : Int) ≤ cfg.maxPerSource →
    (st.entries src).length ≤ (putsOf ops src).length ∧
    (∀ e ∈ putsOf ops src, ∃ k ∈ keys (st.entries src), k ≤ e.timestamp) ∧
    ∀ k ∈ keys (st.entries src), ∃ e ∈ putsOf ops src, e.timestamp ≤ k) ?_ ?_ h
  · intro _ _
    exact ⟨Nat.le_refl _, (fun e he => by cases he), (fun k hk => by cases hk)⟩
  · intro ops st op st' hr hi hcfg ih hv hx hn hlen
    have hn' : NoPrune ops := fun o ho => hn o (by simp [ho])
    rw [putsOf_append] at hlen ⊢
    obtain ⟨i1, i2, i3⟩ := ih hn' (by rw [List.length_append] at hlen; omega)
    cases op with
    | put now s e =>
      obtain ⟨f, hf⟩ := put_spec hi.idx hx
      by_cases hs : src = s
      · subst hs
        rw [putsOf_put, if_pos rfl] at hlen ⊢
        rw [List.length_append, List.length_singleton] at hlen
        have hroom : makeRoom st.cfg.maxPerSource (st.entries src) = st.entries src := by
          unfold makeRoom
          rw [hcfg, if_neg (by omega)]
        have ht := hf.taken
        rw [hroom] at ht
        rw [hf.entries, hroom]
        have hkeep : ∀ k ∈ keys (st.entries src), k ∈ keys (insertKV (e.timestamp + f) e (st.entries src)) := by
          generalize st.entries src = l
          intro k hk
          induction l with
          | nil => cases hk
          | cons q l ih =>
            obtain ⟨k', v⟩ := q
            simp only [insertKV]
            split
            · exact List.mem_cons_of_mem _ hk
            · split
              · rename_i he
                rcases List.mem_cons.1 hk with rfl | hk
                · exact List.mem_cons.2 (.inl (by show k = e.timestamp + f; omega))
                · exact List.mem_cons_of_mem _ hk
              · rcases List.mem_cons.1 hk with rfl | hk
                · exact List.mem_cons_self
                · exact List.mem_cons_of_mem _ (ih hk)
        refine ⟨?_, ?_, ?_⟩
        · obtain ⟨r, hr⟩ := insertKV_perm_or (L := st.entries src) (e.timestamp + f) e
          have := hr.length_eq
          rw [List.length_append, List.length_cons] at this
          rw [List.length_append, List.length_singleton]
          omega
        · intro x hx
          rcases List.mem_append.1 hx with hx | hx
          · obtain ⟨k, hk, hle⟩ := i2 x hx
            exact ⟨k, hkeep k hk, hle⟩
          · rw [List.mem_singleton] at hx
            subst hx
            cases f with
            | zero => exact ⟨_, List.mem_map.2 ⟨_, mem_insertKV_self, rfl⟩, by show x.timestamp + ((0 : Nat) : Int) ≤ _; omega⟩
            | succ f => exact ⟨_, hkeep _ (ht 0 (Nat.succ_pos _)), by omega⟩
        · intro k hk
          obtain ⟨y, hy, rfl⟩ := List.mem_map.1 hk
          rcases Tree.mem_insertKV hy with rfl | hy
          · exact ⟨e, by simp, by show e.timestamp ≤ e.timestamp + f; omega⟩
          · obtain ⟨x, hx, hle⟩ := i3 y.1 (List.mem_map.2 ⟨y, hy, rfl⟩)
            exact ⟨x, List.mem_append_left _ hx, hle⟩
      · rw [entries_other hf hs, putsOf_put, if_neg (fun h => hs h.symm), List.append_nil]
        exact ⟨i1, i2, i3⟩
    | truncate now mc o =>
      have := hn _ (by simp : Op.truncate now mc o ∈ ops ++ [Op.truncate now mc o])
      cases this
    | get s a =>
      simp only [Op.exec, Option.some.injEq] at hx
      subst hx
      rw [putsOf_get, List.append_nil, entries_getState]
      exact ⟨i1, i2, i3⟩

theorem hist_puts {cfg : Config} {ops : List Op} {st : Store} {gh : Ghost} (h : Hist cfg ops st gh) (hn : NoPrune ops)
    (src : Str) : gh.puts src = (putsOf ops src).length := by
  induction h with
  | nil => rfl
  | @snoc ops st st' gh op _ _ _ ih =>
    have ih := ih fun op ho => hn op (List.mem_append_left _ ho)
    rw [putsOf_append, List.length_append, ← ih]
    cases op with
    | put now s e =>
      rw [putsOf_put]
      simp only [Ghost.step]
      by_cases hs : src = s
      · subst hs; simp
      · rw [if_neg hs, if_neg (fun e => hs e.symm)]; simp
    | truncate now mc o =>
      have := hn (.truncate now mc o) (by simp)
      cases this
    | get => simp [Ghost.step, putsOf]

theorem hist_puts_le {cfg : Config} {ops : List Op} {st : Store} {gh : Ghost} (h : Hist cfg ops st gh)
    (src : Str) : gh.puts src ≤ (putsOf ops src).length := by
  induction h with
  | nil => exact le_refl _
  | @snoc ops st st' gh op _ _ _ ih =>
    rw [putsOf_append, List.length_append]
    cases op with
    | put now s e =>
      rw [putsOf_put]
      simp only [Ghost.step]
      by_cases hs : src = s
      · subst hs; simpa using ih
      · rw [if_neg hs, if_neg (fun e => hs e.symm)]; simpa using ih
    | truncate now mc o =>
      simp only [Ghost.step]
      split <;> omega
    | get => simpa [Ghost.step, putsOf] using ih

theorem localMeta_keys {cfg : Config} (hc : 1 ≤ cfg.maxPerSource) {ops : List Op} {st : Store}
    (h : Run (newStore cfg) ops st) : ((localMeta st).map Prod.fst).Nodup := by
  have := (C09_meta_agrees hc h).2.1
  unfold localMeta
  rw [List.map_map]
  exact this

theorem lookup_of_mem {α : Type} {m : List (Str × α)} (hn : (m.map Prod.fst).Nodup) {k : Str} {v : α} (h : (k, v) ∈ m) :
    m.lookup k = some v := by
  induction m with
  | nil => cases h
  | cons p m ih =>
    obtain ⟨a, b⟩ := p
    rw [List.map_cons, List.nodup_cons] at hn
    rcases List.mem_cons.1 h with he | hm
    · injection he with h1 h2
      subst h1 h2
      simp [List.lookup]
    · have hne : k ≠ a := by
        rintro rfl
        exact hn.1 (List.mem_map.2 ⟨_, hm, rfl⟩)
      have : (k == a) = false := by simpa using hne
      rw [List.lookup, this]
      exact ih hn.2 hm

/-- A store that was sent `log` for a source, and has room for it, summarises it. -/
theorem store_summary {cfg : Config} (hc : 1 ≤ cfg.maxPerSource) {ops : List Op} {st : Store}
    (h : Run (newStore cfg) ops st) (hn : NoPrune ops) {src : Str} {log : List WireEnvelope}
    (hs : Spread (putsOf ops src)) (hfew : ∀ ts, howMany (putsOf ops src) ts ≤ cfg.maxFudge)
    (hlog : (putsOf ops src).Perm (log.map envelopeCode)) (hcap : (log.length : Int) ≤ cfg.maxPerSource) :
    (log = [] → (localMeta st).lookup src = none) ∧
    (log ≠ [] → ∃ m, (localMeta st).lookup src = some m ∧ Summary log m) := by
  have hlen : ((putsOf ops src).length : Int) ≤ cfg.maxPerSource := by rw [hlog.length_eq, List.length_map]; exact hcap
  have hkeep := (spread_storage hc h hn src hs hfew hlen).trans hlog
  obtain ⟨c1, c2, c3⟩ := C09_meta_agrees hc h
  constructor
  · rintro rfl
    have he : st.envelopes src = [] := List.Perm.eq_nil hkeep
    have hnot : src ∉ (metaOf st).map Prod.fst := fun hm => (c3 src).1 hm he
    rw [List.lookup_eq_none_iff]
    intro p hp
    obtain ⟨q, hq, rfl⟩ := List.mem_map.1 hp
    rw [bne_iff_ne]
    intro hs
    exact hnot (List.mem_map.2 ⟨q, hq, hs.symm⟩)
  · intro hne
    have he : st.envelopes src ≠ [] := by
      intro h0
      simp only [h0] at hkeep
      exact hne (List.map_eq_nil_iff.1 (List.Perm.eq_nil hkeep.symm))
    obtain ⟨⟨k, m⟩, hm, hk⟩ := List.mem_map.1 ((c3 src).2 he)
    simp only at hk
    subst hk
    refine ⟨_, lookup_of_mem (localMeta_keys hc h) (List.mem_map.2 ⟨_, hm, rfl⟩), ?_⟩
    have hmem : ∀ {P : Int → Prop}, (∃ e ∈ log, P e.timestamp) ↔ ∃ e ∈ st.envelopes k, P e.timestamp := by
      intro P
      constructor
      · rintro ⟨e, he, hp⟩
        exact ⟨envelopeCode e, hkeep.mem_iff.2 (List.mem_map.2 ⟨e, he, rfl⟩), hp⟩
      · rintro ⟨e, he, hp⟩
        obtain ⟨e', he', rfl⟩ := List.mem_map.1 (hkeep.mem_iff.1 he)
        exact ⟨e', he', hp⟩
    have hcount : m.count = log.length := by
      rw [(c1 k m hm).1, hkeep.length_eq, List.length_map]
    obtain ⟨o1, o2⟩ : (∃ e ∈ st.envelopes k, e.timestamp = m.oldest) ∧ ∀ e ∈ st.envelopes k, m.oldest ≤ e.timestamp := by
      obtain ⟨first, rest, he, -, -, hlt⟩ := (c1 k m hm).2.1
      obtain ⟨-, p1, p2⟩ := oldest_put hc h hn k hlen
      have hmin : ∀ x ∈ keys (st.entries k), m.oldest ≤ x := by
        intro x hx
        rw [he] at hx
        rcases List.mem_cons.1 hx with rfl | hx
        · exact Int.le_refl _
        · obtain ⟨y, hy, rfl⟩ := List.mem_map.1 hx
          exact Int.le_of_lt (hlt y hy)
      have hall : ∀ e ∈ putsOf ops k, m.oldest ≤ e.timestamp := by
        intro e hem
        obtain ⟨x, hx, hle⟩ := p1 e hem
        exact Int.le_trans (hmin x hx) hle
      obtain ⟨e, hem, hle⟩ := p2 m.oldest (by rw [he]; exact List.mem_cons_self)
      have hpp := hkeep.trans hlog.symm
      exact ⟨⟨e, hpp.mem_iff.2 hem, Int.le_antisymm hle (hall e hem)⟩, fun e hem => hall e (hpp.mem_iff.1 hem)⟩
    have hall : ∀ e ∈ log, m.oldest ≤ e.timestamp ∧ e.timestamp ≤ m.newest := by
      intro e he
      have hin := hkeep.mem_iff.2 (List.mem_map.2 ⟨e, he, rfl⟩)
      exact ⟨o2 _ hin, (c1 k m hm).2.2 _ hin⟩
    have hexp : m.expired = 0 := by
      obtain ⟨gh, hg, -⟩ := C10_bookkeeping hc h
      have h1 := C10_conservation hc hg hm
      rw [hist_puts hg hn k, hlog.length_eq, List.length_map, hcount] at h1
      have h2 : 0 ≤ m.expired := by
        obtain ⟨⟨k', s⟩, hin, hp⟩ := List.mem_map.1 hm
        simp only [Prod.mk.injEq] at hp
        obtain ⟨rfl, rfl⟩ := hp
        exact ((run_inv hc h).1.idx.2 _ hin).expired
      omega
    have hnew : m.newest = 0 ∨ ∃ e ∈ log, e.timestamp = m.newest := by
      obtain ⟨⟨k', s⟩, hin, hp⟩ := List.mem_map.1 hm
      simp only [Prod.mk.injEq] at hp
      obtain ⟨rfl, rfl⟩ := hp
      rcases newest_put hc h k' s (mem_idxLoad (run_inv hc h).1.idx.1 hin) with h0 | ⟨e, he, ht⟩
      · exact .inl h0
      · obtain ⟨e', he', rfl⟩ := List.mem_map.1 (hlog.mem_iff.1 he)
        exact .inr ⟨e', he', ht⟩
    refine ⟨hcount, hexp, (hmem (P := fun t => t = m.oldest)).2 o1, hall, ?_⟩
    by_cases hx : ∃ e ∈ log, e.timestamp = m.newest
    · exact .inl hx
    · right
      have h0 := hnew.resolve_right hx
      refine ⟨h0, fun e he => ?_⟩
      have h1 := (hall e he).2
      rcases Int.lt_or_eq_of_le h1 with h2 | h2
      · have h3 : m.newest = 0 := h0
        have h4 : e.timestamp < m.newest := h2
        omega
      · exact absurd ⟨e, he, h2⟩ hx

/-! ## The cluster -/

theorem sortKeys_perm {α : Type} {m : List (Str × α)} (h : (m.map Prod.fst).Nodup) : (sortKeys m).Perm m := by
  induction m with
  | nil => exact .nil
  | cons p m ih =>
    rw [List.map_cons, List.nodup_cons] at h
    show (setKey p.1 p.2 (sortKeys m)).Perm (p :: m)
    refine (setKey_perm p.1 p.2 _ ?_).trans ((ih h.2).cons p)
    intro q hq e
    exact h.1 (List.mem_map.2 ⟨q, sortKeys_mem hq, e⟩)

theorem mergeMeta_keys {μ : Type} (parts : List (Option (List (Str × μ)))) {m : List (Str × μ)}
    (h : mergeMeta parts = some m) : (m.map Prod.fst).Nodup := by
  have hset : ∀ (l r : List (Str × μ)), (r.map Prod.fst).Nodup →
      ((l.foldl (fun r p => mapSet r p.1 p.2) r).map Prod.fst).Nodup := by
    intro l
    induction l with
    | nil => exact fun r hr => hr
    | cons p l ih => exact fun r hr => ih _ (mapSet_keys r p.1 p.2 hr).1
  have hacc : ∀ (acc : List (Str × μ) × Nat), (acc.1.map Prod.fst).Nodup →
      ((parts.foldl mergeAcc acc).1.map Prod.fst).Nodup := by
    clear h
    induction parts with
    | nil => exact fun acc ha => ha
    | cons a parts ih =>
      intro acc ha
      refine ih _ ?_
      cases a with
      | none => exact ha
      | some m => exact hset m _ ha
  have hm : mergeMeta parts = if (parts.foldl mergeAcc ([], 0)).2 = parts.length then none
      else some (parts.foldl mergeAcc ([], 0)).1 := by
    unfold mergeMeta mergeAcc
    rfl
  rw [hm] at h
  split at h
  · cases h
  · cases h
    exact hacc _ List.nodup_nil

section
variable {cfg : Config} {n : Nat} {L : Str → List Nat} {evs : List CEvent} {c : Cluster} {posts : List SendReq}

/-- What a node's store tells of each source. -/
theorem node_meta (hcl : ∀ s, AtRestSpread cfg n L evs c posts s) (i : Nat) :
    ((localMeta (c.store i)).map Prod.fst).Nodup ∧ ∀ s,
      (i ∉ L s ∨ postedFor posts s = [] → (localMeta (c.store i)).lookup s = none) ∧
      (i ∈ L s → postedFor posts s ≠ [] →
        ∃ m, (localMeta (c.store i)).lookup s = some m ∧ Summary (postedFor posts s) m) := by
  obtain ⟨h, hr, hp, hpl, ha, hq, -, -, -, -, hc, -⟩ := hcl []
  have hcs := posted_code hp (fun r hr e he => (ha r hr e he).1) (fun w r => C115_send w r)
  have hg := plain_clients hp hpl ha
  obtain ⟨ops, hrun, hnp, hputs⟩ := crun_store h hr i
  have hpend : pending c i = [] := by
    unfold pending
    simp [hq]
  have hcons := crun_conserve h hr i
  rw [hpend, List.append_nil] at hcons
  have hps : ∀ s, (putsOf ops s).Perm
      (((postedFor posts s).map envelopeCode).flatMap (fun e => List.replicate ((L s).count i) e)) := by
    intro s
    rw [hputs, ← hcs, ← destined_src L i evs hg s]
    exact hcons.filter _
  have hput : ∀ s, (putsOf ops s).Perm ((if i ∈ L s then postedFor posts s else []).map envelopeCode) := by
    intro s
    have h1 := hps s
    have hcnt := List.nodup_iff_count.1 (hcl s).once i
    split
    · rename_i hi
      have := List.count_pos_iff.2 hi
      rw [show (L s).count i = 1 by omega, flatMap_replicate_one] at h1
      exact h1
    · rename_i hi
      rw [List.count_eq_zero.2 hi, flatMap_replicate_zero] at h1
      exact h1
  refine ⟨localMeta_keys hc hrun, fun s => ?_⟩
  have hsp : Spread (putsOf ops s) := by
    refine spread_perm (hput s).symm (spread_code ?_)
    split
    · exact (hcl s).spread
    · intro x hx; cases hx
  have hfew : ∀ ts, howMany (putsOf ops s) ts ≤ cfg.maxFudge := by
    intro ts
    rw [howMany_perm (hput s), howMany_code]
    split
    · exact (hcl s).few ts
    · exact Nat.zero_le _
  have hsum := store_summary hc hrun hnp hsp hfew (hput s) (by
    have := (hcl s).fits
    split
    · exact this
    · simp only [List.length_nil]; omega)
  constructor
  · rintro (hi | h0)
    · exact hsum.1 (if_neg hi)
    · exact hsum.1 (by rw [h0]; split <;> rfl)
  · intro hi hne
    rw [if_pos hi] at hsum
    exact hsum.2 hne

/-- What is told of the sources fits the messages. -/
theorem summary_fits (hcl : ∀ s, AtRestSpread cfg n L evs c posts s) (hmax : cfg.maxPerSource < 2 ^ 63) {s : Str} {m : WireMeta}
    (h : Summary (postedFor posts s) m) :
    FitsInt64 m.count ∧ FitsInt64 m.expired ∧ FitsInt64 m.oldest ∧ FitsInt64 m.newest := by
  obtain ⟨h1, h2, ⟨e, he, h3⟩, -, h4⟩ := h
  have ht : ∀ e ∈ postedFor posts s, FitsInt64 e.timestamp := by
    intro e he
    obtain ⟨p, hpm, hpe⟩ := List.mem_flatMap.1 (List.mem_filter.1 he).1
    exact ((hcl s).arrived p hpm e hpe).1.1
  have hf := (hcl s).fits
  have hz : FitsInt64 0 := by unfold FitsInt64; norm_num
  refine ⟨by rw [h1]; unfold FitsInt64; omega, by rw [h2]; exact hz, by rw [← h3]; exact ht e he, ?_⟩
  rcases h4 with ⟨e', he', h4⟩ | ⟨h4, -⟩
  · rw [← h4]; exact ht e' he'
  · rw [h4]; exact hz

/-- What the node that is asked has of another: what that one's store tells, or nothing. -/
theorem metaPart_lookup (hcl : ∀ s, AtRestSpread cfg n L evs c posts s) (hmax : cfg.maxPerSource < 2 ^ 63) {j i : Nat}
    {p : Option (List (Str × WireMeta))} (h : MetaPart c j i p) {m : List (Str × WireMeta)} (hm : p = some m) :
    (m.map Prod.fst).Nodup ∧ ∀ s, m.lookup s = (localMeta (c.store i)).lookup s := by
  obtain ⟨hnd, hall⟩ := node_meta hcl i
  cases h with
  | own => cases hm; exact ⟨hnd, fun s => rfl⟩
  | failed => cases hm
  | answered w _ hw =>
    unfold grpcMetaAnswer at hm
    split at hm
    · rename_i hle
      have hv : ValidMetaMap (sortKeys (localMeta (c.store i))) := by
        refine ⟨sortKeys_order _, fun q hq => ?_⟩
        have hl := lookup_of_mem hnd (sortKeys_mem hq)
        by_cases hi : i ∉ L q.1 ∨ postedFor posts q.1 = []
        · rw [(hall q.1).1 hi] at hl; cases hl
        · rw [not_or, not_not] at hi
          obtain ⟨m', hm', hs⟩ := (hall q.1).2 hi.1 hi.2
          rw [hm'] at hl
          injection hl with hl
          rw [← hl]
          exact summary_fits hcl hmax hs
      have hd := (C115_meta false w _ (hw.trans (sortKeys_perm hnd).symm) hv (max_lt hle)).2
      rw [hd] at hm
      injection hm with hm
      subst hm
      refine ⟨((sortKeys_perm hnd).map Prod.fst).nodup_iff.2 hnd, fun s => sortKeys_lookup _ s⟩
    · cases hm

/-- What the asked node puts together tells of sources that were sent, and no other. -/
theorem merged_some (hcl : ∀ s, AtRestSpread cfg n L evs c posts s) (hmax : cfg.maxPerSource < 2 ^ 63) {j : Nat}
    {parts : List (Option (List (Str × WireMeta)))} (hparts : ∀ i p, parts[i]? = some p → MetaPart c j i p)
    {m : List (Str × WireMeta)} (hmerge : mergeMeta parts = some m) :
    (∀ a ∈ parts, ∀ m, a = some m → ∃ i, parts[i]? = some (some m) ∧ (m.map Prod.fst).Nodup ∧
      ∀ s, m.lookup s = (localMeta (c.store i)).lookup s) ∧
    (∀ s, m.lookup s = (parts.reverse.filterMap (fun a => a.bind (fun m => m.lookup s))).head?) ∧
    ∀ id x, m.lookup id = some x → OwnerHeard L parts id ∧ postedFor posts id ≠ [] ∧
      Summary (postedFor posts id) x := by
  have hpart : ∀ a ∈ parts, ∀ m, a = some m → ∃ i, parts[i]? = some (some m) ∧ (m.map Prod.fst).Nodup ∧
      ∀ s, m.lookup s = (localMeta (c.store i)).lookup s := by
    intro a ha m hm
    obtain ⟨i, hi⟩ := List.mem_iff_getElem?.1 ha
    rw [hm] at hi
    exact ⟨i, hi, metaPart_lookup hcl hmax (hparts i _ hi) rfl⟩
  have hlook := (C37_meta_merge parts (by
    intro m hm
    obtain ⟨i, -, h1, -⟩ := hpart _ hm m rfl
    exact h1)).2 m hmerge
  refine ⟨hpart, hlook, ?_⟩
  intro id x hx
  rw [hlook id] at hx
  obtain ⟨a, ha, hb⟩ := List.mem_filterMap.1 (List.mem_of_mem_head? hx)
  cases a with
  | none => cases hb
  | some m1 =>
    obtain ⟨i, hi, -, hl⟩ := hpart _ (List.mem_reverse.1 ha) m1 rfl
    have hb : m1.lookup id = some x := hb
    rw [hl id] at hb
    by_cases hno : i ∉ L id ∨ postedFor posts id = []
    · rw [((node_meta hcl i).2 id).1 hno] at hb
      cases hb
    · rw [not_or, not_not] at hno
      obtain ⟨m', hm', hs⟩ := ((node_meta hcl i).2 id).2 hno.1 hno.2
      rw [hm'] at hb
      injection hb with hb
      subst hb
      exact ⟨⟨i, hno.1, m1, hi⟩, hno.2, hs⟩

/-- A user asks for Meta of a cluster at rest: they get, for each source they may see of which an
owner was heard, a summary of all that was sent for it, and no other source. -/
theorem C165_user_partial (hcl : ∀ s, AtRestSpread cfg n L evs c posts s) (hmax : cfg.maxPerSource < 2 ^ 63)
    {oauth : Str → Option UserCtx} {available : Str → List Str} {tok : Str} {u : UserCtx} (ht : tok ≠ [])
    (hu : oauth tok = some u) {j : Nat} {parts : List (Option (List (Str × WireMeta)))}
    {out : Option (List (Str × WireMeta))} (h : UserMeta oauth available c n j parts tok out)
    (hfits : ∀ m w, mergeMeta parts = some m → SameMap w m → (metaRespProto.encode w).length ≤ grpcMaxMessage) :
    ∃ m, out = some m ∧ ∀ id,
      ((u.isAdmin = true ∨ id ∈ available tok) ∧ OwnerHeard L parts id ∧ postedFor posts id ≠ [] →
        ∃ x, m.lookup id = some x ∧ Summary (postedFor posts id) x) ∧
      (¬ ((u.isAdmin = true ∨ id ∈ available tok) ∧ OwnerHeard L parts id ∧ postedFor posts id ≠ []) →
        m.lookup id = none) := by
  obtain ⟨hlen, hparts, m, w, hmerge, hw, rfl⟩ := h
  have hnd := mergeMeta_keys parts hmerge
  obtain ⟨-, hlook, hsome⟩ := merged_some hcl hmax hparts hmerge
  have hex : ∀ id, OwnerHeard L parts id → postedFor posts id ≠ [] → ∃ x, m.lookup id = some x := by
    rintro id ⟨i, hi, m1, hm1⟩ hne
    obtain ⟨x, hx, -⟩ := ((node_meta hcl i).2 id).2 hi hne
    have hl := (metaPart_lookup hcl hmax (hparts i _ hm1) rfl).2 id
    rw [hx] at hl
    have hmem : x ∈ parts.reverse.filterMap (fun a => a.bind (fun m => m.lookup id)) :=
      List.mem_filterMap.2 ⟨some m1, List.mem_reverse.2 (List.mem_of_getElem? hm1), hl⟩
    rw [hlook id]
    cases hh : parts.reverse.filterMap (fun a => a.bind (fun m => m.lookup id)) with
    | nil => rw [hh] at hmem; cases hmem
    | cons y t => exact ⟨y, rfl⟩
  have hval : ∀ p ∈ m, FitsInt64 p.2.count ∧ FitsInt64 p.2.expired ∧ FitsInt64 p.2.oldest ∧ FitsInt64 p.2.newest := by
    intro p hp
    exact summary_fits hcl hmax (hsome p.1 p.2 (lookup_of_mem hnd hp)).2.2
  have hvm : ValidMetaMap (sortKeys m) := ⟨sortKeys_order m, fun p hp => hval p (sortKeys_mem hp)⟩
  have hle := hfits m w hmerge hw
  have hthrough : metaThroughGateway (metaRespProto.encode w) = some (sortKeys m) := by
    unfold metaThroughGateway grpcMetaAnswer
    rw [if_pos hle, (C115_meta false w _ (hw.trans (sortKeys_perm hnd).symm) hvm (max_lt hle)).2]
    exact C113_meta _ hvm
  obtain ⟨body, m', h1, h2, h3⟩ := C150_user oauth available (sortKeys m) tok u ht hu
    (((sortKeys_perm hnd).map Prod.fst).nodup_iff.2 hnd) hvm.2
  refine ⟨m', ?_, fun id => ⟨?_, ?_⟩⟩
  · unfold userMetaAnswer
    rw [hthrough, h1]
    exact h2
  · rintro ⟨hmay, hheard, hne⟩
    obtain ⟨x, hx⟩ := hex id hheard hne
    exact ⟨x, by rw [h3, if_pos hmay, sortKeys_lookup, hx], (hsome id x hx).2.2⟩
  · intro hno
    rw [h3]
    split
    · rename_i hmay
      rw [sortKeys_lookup]
      cases hx : m.lookup id with
      | none => rfl
      | some x =>
        obtain ⟨a, b, -⟩ := hsome id x hx
        exact absurd ⟨hmay, a, b⟩ hno
    · rfl

end

theorem metaEntry_len (p : Str × WireMeta) (K : Nat) (hK : (utf8Bytes p.1).length ≤ K) (hm : K + 100 ≤ grpcMaxMessage) :
    (encFields (mapFields 1 wireMetaProto.encode [p])).length ≤ K + 60 := by
  have hv : ∀ n, n ≤ grpcMaxMessage → (putVarint n).length ≤ 4 := fun n hn =>
    putVarint_len (k := 3) (lt_of_le_of_lt hn (by unfold grpcMaxMessage; norm_num))
  have hint : ∀ (k : Nat) (x : Int), k < 16 → (encFields (intField k x)).length ≤ 11 := by
    intro k x hk
    have h1 : (putVarint (k * 8 + 0)).length ≤ 1 := putVarint_len (k := 0) (by norm_num; omega)
    have h2 : (putVarint (asUint64 x)).length ≤ 10 := putVarint_len (k := 9) (by
      have : asUint64 x < 2 ^ 64 := by unfold asUint64; omega
      exact lt_of_lt_of_le this (by norm_num))
    unfold intField optField
    split
    · exact Nat.zero_le _
    · simp only [encFields, List.length_append, WireVal.wireType, WireVal.body, List.length_nil]
      omega
  have hw : (wireMetaProto.encode p.2).length ≤ 44 := by
    show (encFields (intField 1 p.2.count ++ (intField 2 p.2.expired ++ (intField 3 p.2.oldest ++
      intField 4 p.2.newest)))).length ≤ _
    have h1 := hint 1 p.2.count (by omega)
    have h2 := hint 2 p.2.expired (by omega)
    have h3 := hint 3 p.2.oldest (by omega)
    have h4 := hint 4 p.2.newest (by omega)
    simp only [encLen_append]
    omega
  have h8 : (putVarint (1 * 8 + 2)).length = 1 := by unfold putVarint; rfl
  have h9 : (putVarint (2 * 8 + 2)).length = 1 := by unfold putVarint; rfl
  have hk4 := hv (utf8Bytes p.1).length (by omega)
  have hw4 := hv (wireMetaProto.encode p.2).length (by omega)
  have he : (encFields [(1, .bytes (utf8Bytes p.1)), (2, .bytes (wireMetaProto.encode p.2))]).length ≤ K + 54 := by
    simp only [encFields, List.length_append, WireVal.wireType, WireVal.body, h8, h9, List.length_nil]
    omega
  have he4 := hv _ (le_trans he (by omega))
  show (encFields [(1, .bytes (encFields [(1, .bytes (utf8Bytes p.1)), (2, .bytes (wireMetaProto.encode p.2))]))]).length ≤ _
  generalize encFields [(1, .bytes (utf8Bytes p.1)), (2, .bytes (wireMetaProto.encode p.2))] = bs at he he4
  simp only [encFields, List.length_append, WireVal.wireType, WireVal.body, h8, List.length_nil]
  omega

/-- It fits if there are few enough sources: with ids of 36 bytes, up to 43690. -/
theorem C165_fits {cfg : Config} {n : Nat} {L : Str → List Nat} {evs : List CEvent} {c : Cluster} {posts : List SendReq}
    (hcl : ∀ s, AtRestSpread cfg n L evs c posts s) (hmax : cfg.maxPerSource < 2 ^ 63) {j : Nat}
    {parts : List (Option (List (Str × WireMeta)))} (hparts : ∀ i p, parts[i]? = some p → MetaPart c j i p)
    (ids : List Str) (hids : ∀ id, postedFor posts id ≠ [] → id ∈ ids) (K : Nat)
    (hK : ∀ id ∈ ids, (utf8Bytes id).length ≤ K) (hm : K + 100 ≤ grpcMaxMessage)
    (hfit : ids.length * (K + 60) ≤ grpcMaxMessage) :
    ∀ m w, mergeMeta parts = some m → SameMap w m → (metaRespProto.encode w).length ≤ grpcMaxMessage := by
  intro m w hmerge hw
  obtain ⟨-, -, hsome⟩ := merged_some hcl hmax hparts hmerge
  have hnd := mergeMeta_keys parts hmerge
  have hin : ∀ p ∈ w, p.1 ∈ ids := fun p hp =>
    hids _ (hsome p.1 p.2 (lookup_of_mem hnd (hw.mem_iff.1 hp))).2.1
  have hlen : w.length ≤ ids.length := by
    have h1 : (w.map Prod.fst).Nodup := (hw.map Prod.fst).nodup_iff.2 hnd
    have h2 : (w.map Prod.fst) ⊆ ids := by
      intro k hk
      obtain ⟨p, hp, rfl⟩ := List.mem_map.1 hk
      exact hin p hp
    have := (h1.subperm h2).length_le
    rwa [List.length_map] at this
  have hle : (encFields (mapFields 1 wireMetaProto.encode w)).length ≤ w.length * (K + 60) := by
    clear hw hlen
    induction w with
    | nil => exact Nat.zero_le _
    | cons p w ih =>
      have h1 := metaEntry_len p K (hK _ (hin p List.mem_cons_self)) hm
      have h2 := ih fun q hq => hin q (List.mem_cons_of_mem _ hq)
      have h3 : mapFields 1 wireMetaProto.encode (p :: w) = mapFields 1 wireMetaProto.encode [p] ++
        mapFields 1 wireMetaProto.encode w := rfl
      rw [h3, encLen_append, List.length_cons, Nat.succ_mul]
      omega
  exact le_trans hle (le_trans (Nat.mul_le_mul_right _ hlen) hfit)

/-- If what the nodes tell does not fit in a message of grpc, nobody gets an answer. -/
theorem C165_large {oauth : Str → Option UserCtx} {available : Str → List Str} {c : Cluster} {n j : Nat} {tok : Str}
    {parts : List (Option (List (Str × WireMeta)))} {out : Option (List (Str × WireMeta))}
    (h : UserMeta oauth available c n j parts tok out)
    (hbig : ∀ m w, mergeMeta parts = some m → SameMap w m → grpcMaxMessage < (metaRespProto.encode w).length) :
    out = none := by
  obtain ⟨-, -, m, w, hm, hw, rfl⟩ := h
  have hb := hbig m w hm hw
  have hnone : metaThroughGateway (metaRespProto.encode w) = none := by
    unfold metaThroughGateway grpcMetaAnswer
    rw [if_neg (by omega)]
    rfl
  unfold userMetaAnswer
  rw [hnone]
  by_cases ht : tok = [] ∨ oauth tok = none
  · rw [(C150_refused oauth available none tok).1 ht]
  · rw [not_or] at ht
    rw [(C150_refused oauth available none tok).2 ht.1 (Option.isSome_iff_ne_none.2 ht.2) rfl]

/-- Whoever has no valid token gets no answer. -/
theorem C165_stranger {oauth : Str → Option UserCtx} {available : Str → List Str} {c : Cluster} {n j : Nat} {tok : Str}
    {parts : List (Option (List (Str × WireMeta)))} {out : Option (List (Str × WireMeta))}
    (h : UserMeta oauth available c n j parts tok out) (ht : tok = [] ∨ oauth tok = none) : out = none := by
  obtain ⟨-, -, m, w, hm, hw, rfl⟩ := h
  unfold userMetaAnswer
  rw [(C150_refused oauth available _ tok).1 ht]

/-! ## Two envelopes -/

/-- With distinct times there is nothing to spread. -/
theorem atRest_spread {cfg : Config} {n : Nat} {L : Str → List Nat} {evs : List CEvent} {c : Cluster}
    {posts : List SendReq} {id : Str} (h : AtRest cfg n L evs c posts id) (hf : 1 ≤ cfg.maxFudge) :
    AtRestSpread cfg n L evs c posts id := by
  have h1 : ∀ ts, howManyWire (postedFor posts id) ts ≤ 1 := by
    intro ts
    have ht := h.times id
    unfold howManyWire
    generalize postedFor posts id = l at ht
    have h2 : ((l.filter fun x => decide (x.timestamp = ts)).map WireEnvelope.timestamp).length ≤ [ts].length := by
      refine ((List.Nodup.sublist (List.filter_sublist.map _) ht).subperm ?_).length_le
      intro t h3
      obtain ⟨e, he, rfl⟩ := List.mem_map.1 h3
      exact List.mem_singleton.2 (of_decide_eq_true (List.mem_filter.1 he).2)
    rwa [List.length_map] at h2
  refine ⟨h.run, h.reliable, h.posted, h.plain, h.arrived, h.quiet, h.once id, h.owned, ?_, fun ts => ?_, h.some, h.fits⟩
  · intro x hx y hy hlt
    have := h1 x.timestamp
    omega
  · exact Nat.le_trans (h1 ts) hf

/-- A counter of the source `id`. -/
def idEnvelope (t : Int) (id : Str) : WireEnvelope :=
  { timestamp := t, sourceId := id, message := some (.counter "m".toList 1 1) }

theorem idEnvelope_arrived (t : Int) (ht : FitsInt64 t) (id : Str) : Arrived (idEnvelope t id) := by
  refine ⟨⟨ht, List.Pairwise.nil, (by intro p hp; cases hp), List.Pairwise.nil, ?_⟩, ?_⟩
  · intro m hm
    cases hm
    exact ⟨by norm_num, by norm_num⟩
  · intro t h
    simp [idEnvelope] at h

def twoSources (i1 i2 : Str) : List SendReq :=
  [{ envelopes := some [idEnvelope 1 i1] }, { envelopes := some [idEnvelope 2 i2] }]

theorem two_any (e1 e2 : Envelope) : ∃ c,
    CRun (newCluster { maxPerSource := 5 } 1 (fun _ _ => [0]))
      ([] ++ [.client 0 { envelopes := some [e1] }] ++ [.client 0 { envelopes := some [e2] }]) c ∧
    ∀ j i, c.queue j i = [] := by
  obtain ⟨s1, h1⟩ := C01_put_total (cfg := { maxPerSource := 5 }) (by decide) (Run.nil _) 0 e1.sourceId e1
  obtain ⟨s2, h2⟩ := C01_put_total (cfg := { maxPerSource := 5 }) (by decide)
    (Run.snoc (op := .put 0 e1.sourceId e1) (.nil _) trivial (show Op.exec _ (.put 0 e1.sourceId e1) = some s1 from h1)) 0 e2.sourceId e2
  refine ⟨_, CRun.snoc (CRun.snoc (CRun.nil _) (.client Nat.zero_lt_one
      ⟨fun _ => true, _, _, .proxied _ rfl [e1] rfl [(0, [e1])] (List.Perm.refl _), .cons 0 h1 (.nil _), rfl⟩))
      (.client Nat.zero_lt_one ⟨fun _ => true, _, _, .proxied _ rfl [e2] rfl [(0, [e2])]
        (List.Perm.refl _), .cons 0 h2 (.nil _), rfl⟩), ?_⟩
  intro j i
  simp only [newCluster]
  by_cases h1 : j = 0 <;> by_cases h2 : i = 0 <;> simp_all [sentTo]
  intro h; exact absurd h.symm h2

theorem atRest_sources (i1 i2 : Str) (hs : ∀ r ∈ twoSources i1 i2, (sendReqProto.encode r).length ≤ grpcMaxMessage) :
    ∃ evs c, ∀ s, AtRestSpread { maxPerSource := 5 } 1 (fun _ => [0]) evs c (twoSources i1 i2) s := by
  have ha1 := idEnvelope_arrived 1 (by unfold FitsInt64; norm_num) i1
  have ha2 := idEnvelope_arrived 2 (by unfold FitsInt64; norm_num) i2
  obtain ⟨c, hrun, hq⟩ := two_any (envelopeCode (idEnvelope 1 i1)) (envelopeCode (idEnvelope 2 i2))
  refine ⟨_, c, fun s => atRest_spread ⟨hrun, ?_, ?_, ?_, ?_, hq, fun _ => by simp, ?_, by simp, by decide, ?_⟩ (by decide)⟩
  · intro ev hev
    simp at hev
    rcases hev with rfl | rfl <;> trivial
  · exact List.Forall₂.cons (posted_one (r := { envelopes := some [idEnvelope 1 i1] }) rfl (by simpa using ha1)
      (hs _ (by simp [twoSources])))
      (List.Forall₂.cons (posted_one (r := { envelopes := some [idEnvelope 2 i2] }) rfl (by simpa using ha2)
        (hs _ (by simp [twoSources]))) List.Forall₂.nil)
  · intro r hr
    simp only [twoSources, List.mem_cons, List.not_mem_nil, or_false] at hr
    rcases hr with rfl | rfl <;> rfl
  · intro r hr e he
    simp only [twoSources, List.mem_cons, List.not_mem_nil, or_false] at hr
    rcases hr with rfl | rfl <;> simp at he <;> subst he
    · exact ha1
    · exact ha2
  · intro s
    simp only [twoSources, postedFor, List.flatMap_cons, List.flatMap_nil, Option.getD_some, List.append_nil,
      List.singleton_append]
    exact List.Nodup.sublist (List.filter_sublist.map _) (by simp [idEnvelope])
  · have : (postedFor (twoSources i1 i2) s).length ≤ 2 := by
      simp only [twoSources, postedFor, List.flatMap_cons, List.flatMap_nil, Option.getD_some, List.append_nil,
        List.singleton_append]
      exact List.length_filter_le _ _
    show ((postedFor (twoSources i1 i2) s).length : Int) ≤ 5
    omega

theorem posted_sources (i1 i2 : Str) : postedFor (twoSources i1 i2) i1 ≠ [] ∧ postedFor (twoSources i1 i2) i2 ≠ [] := by
  constructor <;> refine List.ne_nil_of_mem (a := ?_) (List.mem_filter.2 ⟨?_, ?_⟩)
  · exact idEnvelope 1 i1
  · simp [twoSources]
  · simp [idEnvelope]
  · exact idEnvelope 2 i2
  · simp [twoSources]
  · simp [idEnvelope]

/-- One node, which is asked: it has its own store. -/
theorem one_part {oauth : Str → Option UserCtx} {available : Str → List Str} {c : Cluster}
    {parts : List (Option (List (Str × WireMeta)))} {tok : Str} {out : Option (List (Str × WireMeta))}
    (h : UserMeta oauth available c 1 0 parts tok out) : parts = [some (localMeta (c.store 0))] := by
  obtain ⟨hlen, hp, -⟩ := h
  obtain ⟨p, rfl⟩ := List.length_eq_one_iff.1 hlen
  have := hp 0 p rfl
  cases this with
  | own => rfl
  | failed h => exact absurd rfl h
  | answered w h => exact absurd rfl h

theorem meta_len (w : List (Str × WireMeta)) :
    (w.map fun p => (utf8Bytes p.1).length).sum ≤ (metaRespProto.encode w).length := by
  show _ ≤ (encFields (mapFields 1 wireMetaProto.encode w)).length
  induction w with
  | nil => exact Nat.zero_le _
  | cons p w ih =>
    have : mapFields 1 wireMetaProto.encode (p :: w) =
        (1, .bytes (encFields [(1, .bytes (utf8Bytes p.1)), (2, .bytes (wireMetaProto.encode p.2))])) ::
          mapFields 1 wireMetaProto.encode w := rfl
    rw [this]
    simp only [encFields, List.length_append, WireVal.body, List.map_cons, List.sum_cons]
    omega

theorem two_keys_len {w : List (Str × WireMeta)} {p q : Str × WireMeta} (hp : p ∈ w) (hq : q ∈ w) (hne : q.1 ≠ p.1) :
    (utf8Bytes p.1).length + (utf8Bytes q.1).length ≤ (metaRespProto.encode w).length := by
  have h1 := List.perm_cons_erase hp
  have hq' : q ∈ w.erase p := (List.mem_erase_of_ne (fun e => hne (by rw [e]))).2 hq
  have h2 := List.perm_cons_erase hq'
  have h3 := ((h1.trans (h2.cons p)).map fun p => (utf8Bytes p.1).length).sum_eq
  rw [List.map_cons, List.map_cons, List.sum_cons, List.sum_cons] at h3
  have := meta_len w
  omega

theorem idEnvelope_len (t : Int) (ht : t = 1 ∨ t = 2) (k : Nat) (hk : k + 100 ≤ grpcMaxMessage) :
    (sendReqProto.encode { envelopes := some [idEnvelope t (List.replicate k 'x')] }).length ≤ grpcMaxMessage := by
  have hv : ∀ n, n ≤ grpcMaxMessage → (putVarint n).length ≤ 4 := fun n hn =>
    putVarint_len (k := 3) (lt_of_le_of_lt hn (by unfold grpcMaxMessage; norm_num))
  have hb : (encFields (strField 2 (List.replicate k 'x'))).length ≤ k + 5 := by
    have h8 : (putVarint (2 * 8 + 2)).length = 1 := by unfold putVarint; rfl
    have hvk := hv k (by omega)
    unfold strField optField
    split
    · simp [encFields]
    · simp only [encFields, List.length_append, WireVal.wireType, WireVal.body, h8, List.length_nil, utf8_len]
      omega
  have ha : (encFields (intField 1 t)).length = 2 := by rcases ht with rfl | rfl <;> decide +kernel
  have hc : (encFields [(5, .bytes (counterProto.encode ("m".toList, 1, 1)))]).length = 9 := by decide +kernel
  have he : (wireEnvelopeProto.encode (idEnvelope t (List.replicate k 'x'))).length ≤ k + 16 := by
    show (encFields (wireEnvelopeProto.fields (idEnvelope t (List.replicate k 'x')))).length ≤ _
    have he : wireEnvelopeProto.fields (idEnvelope t (List.replicate k 'x')) = intField 1 t ++
      (strField 2 (List.replicate k 'x') ++ [(5, .bytes (counterProto.encode ("m".toList, 1, 1)))]) := rfl
    rw [he]
    simp only [encLen_append, ha, hc]
    omega
  exact answer_bound (ws := [idEnvelope t (List.replicate k 'x')]) (B := k + 16) (by simpa using he)
    (by show 1 * (k + 16 + 5) + 5 ≤ _; omega)

/-- Two sources with ids of 3 MiB: the requests that told of them were taken, and from then on
nobody gets Meta, not even of other sources. -/
theorem C165_user_false : ∃ (k : Nat) (evs : List CEvent) (c : Cluster),
    (∀ s, AtRestSpread { maxPerSource := 5 } 1 (fun _ => [0]) evs c
      (twoSources (List.replicate k 'x') (List.replicate (k + 1) 'x')) s) ∧
    ∀ oauth available tok, (∃ parts out, UserMeta oauth available c 1 0 parts tok out) ∧
      ∀ parts out, UserMeta oauth available c 1 0 parts tok out → out = none := by
  have hmax : grpcMaxMessage = 4194304 := rfl
  obtain ⟨k, hk⟩ : ∃ k : Nat, k = 3145728 := ⟨_, rfl⟩
  obtain ⟨evs, c, h⟩ := atRest_sources (List.replicate k 'x') (List.replicate (k + 1) 'x') (by
    intro r hr
    simp only [twoSources, List.mem_cons, List.not_mem_nil, or_false] at hr
    rcases hr with rfl | rfl
    · exact idEnvelope_len 1 (.inl rfl) k (by omega)
    · exact idEnvelope_len 2 (.inr rfl) (k + 1) (by omega))
  refine ⟨k, evs, c, h, fun oauth available tok => ⟨?_, ?_⟩⟩
  · have hm : ∃ m, mergeMeta [some (localMeta (c.store 0))] = some m := ⟨_, rfl⟩
    obtain ⟨m, hm⟩ := hm
    refine ⟨_, _, ⟨rfl, ?_, m, m, hm, List.Perm.refl _, rfl⟩⟩
    intro i p hi
    cases i with
    | zero => cases hi; exact .own rfl
    | succ i => cases hi
  · intro parts out hu
    refine C165_large hu fun m w hm hw => ?_
    rw [one_part hu] at hm
    obtain ⟨hnd, hall⟩ := node_meta h 0
    obtain ⟨x, hx, -⟩ := (hall (List.replicate k 'x')).2 (by simp) (posted_sources _ _).1
    obtain ⟨y, hy, -⟩ := (hall (List.replicate (k + 1) 'x')).2 (by simp) (posted_sources _ _).2
    have hl := (C37_meta_merge _ (by
      intro m hm
      rw [List.mem_singleton] at hm
      cases hm
      exact hnd)).2 m hm
    have hl' : ∀ s, m.lookup s = (localMeta (c.store 0)).lookup s := by
      intro s
      rw [hl s]
      simp only [List.reverse_singleton, List.filterMap_cons, List.filterMap_nil, Option.bind_some]
      cases (localMeta (c.store 0)).lookup s <;> rfl
    have hxm := lookup_mem ((hl' _).trans hx)
    have hym := lookup_mem ((hl' _).trans hy)
    have := two_keys_len (hw.mem_iff.2 hxm) (hw.mem_iff.2 hym) (by
      intro e
      have := congrArg List.length e
      simp at this)
    simp only [utf8_len] at this
    omega

/-- The hypotheses are met: a user who may see only `a` learns of the envelope of `a` and not of `b`,
one who may see all learns of both. -/
example : ∃ evs c, (∀ s, AtRestSpread { maxPerSource := 5 } 1 (fun _ => [0]) evs c (twoSources "a".toList "b".toList) s) ∧
    ∀ (adm : Bool) (oauth : Str → Option UserCtx), oauth "t".toList = some ⟨adm, "t".toList, 0⟩ →
      (∃ parts out, UserMeta oauth (fun _ => ["a".toList]) c 1 0 parts "t".toList out) ∧
      ∀ parts out, UserMeta oauth (fun _ => ["a".toList]) c 1 0 parts "t".toList out →
        ∃ m x, out = some m ∧ m.lookup "a".toList = some x ∧ x.count = 1 ∧ x.oldest = 1 ∧ x.newest = 1 ∧
          (adm = false → m.lookup "b".toList = none) ∧ (adm = true → (m.lookup "b".toList).isSome) := by
  obtain ⟨evs, c, h⟩ := atRest_sources "a".toList "b".toList (by
    intro r hr
    have hb : (sendReqProto.encode { envelopes := some [idEnvelope 1 "a".toList] }).length ≤ 100 ∧
      (sendReqProto.encode { envelopes := some [idEnvelope 2 "b".toList] }).length ≤ 100 := by decide +kernel
    have hmax : grpcMaxMessage = 4194304 := rfl
    simp only [twoSources, List.mem_cons, List.not_mem_nil, or_false] at hr
    rcases hr with rfl | rfl <;> omega)
  refine ⟨evs, c, h, fun adm oauth ho => ⟨?_, fun parts out hu => ?_⟩⟩
  · obtain ⟨m, hm⟩ : ∃ m, mergeMeta [some (localMeta (c.store 0))] = some m := ⟨_, rfl⟩
    refine ⟨_, _, ⟨rfl, ?_, m, m, hm, List.Perm.refl _, rfl⟩⟩
    intro i p hi
    cases i with
    | zero => cases hi; exact .own rfl
    | succ i => cases hi
  · have hparts := one_part hu
    have hpa : postedFor (twoSources "a".toList "b".toList) "a".toList = [idEnvelope 1 "a".toList] := rfl
    have hpb : postedFor (twoSources "a".toList "b".toList) "b".toList = [idEnvelope 2 "b".toList] := rfl
    have hheard : ∀ id, OwnerHeard (fun _ => [0]) parts id := by
      intro id
      rw [hparts]
      exact ⟨0, List.mem_singleton.2 rfl, _, rfl⟩
    obtain ⟨m, rfl, hall⟩ := C165_user_partial h (by norm_num) (by decide) ho hu (C165_fits h (by norm_num) hu.2.1
      ["a".toList, "b".toList] (by
        intro id hid
        obtain ⟨e, he⟩ := List.exists_mem_of_ne_nil _ hid
        obtain ⟨h1, h2⟩ := List.mem_filter.1 he
        have h2 : e.sourceId = id := of_decide_eq_true h2
        have h1 : e = idEnvelope 1 "a".toList ∨ e = idEnvelope 2 "b".toList := by simpa [twoSources] using h1
        rw [← h2]
        rcases h1 with rfl | rfl
        · exact List.mem_cons_self
        · exact List.mem_cons_of_mem _ List.mem_cons_self) 1 (by decide +kernel)
      (by unfold grpcMaxMessage; norm_num) (by unfold grpcMaxMessage; norm_num))
    obtain ⟨x, hx, hs⟩ := (hall "a".toList).1 ⟨.inr (by simp), hheard _, by rw [hpa]; simp⟩
    rw [hpa] at hs
    obtain ⟨h1, -, ⟨e, he, h2⟩, -, h3⟩ := hs
    rw [List.mem_singleton] at he
    subst he
    refine ⟨m, x, rfl, hx, h1, h2.symm, ?_, ?_, ?_⟩
    · rcases h3 with ⟨e, he, h3⟩ | ⟨-, h3⟩
      · rw [List.mem_singleton] at he
        subst he
        exact h3.symm
      · have := h3 _ (List.mem_singleton.2 rfl)
        have h4 : (idEnvelope 1 "a".toList).timestamp = 1 := rfl
        omega
    · rintro rfl
      refine (hall "b".toList).2 ?_
      rintro ⟨h | h, -⟩
      · cases h
      · revert h
        decide
    · rintro rfl
      obtain ⟨y, hy, -⟩ := (hall "b".toList).1 ⟨.inl rfl, hheard _, by rw [hpb]; simp⟩
      rw [hy]
      rfl

end LogCache
