import Verif.Spec.MetaCrash
import Verif.Props.MetaUser
import Verif.Props.UserCrash
import Verif.Props.EqualTimes

/-!
# What a user learns from Meta while nodes crash and recover (C168)
-/

namespace LogCache
open Spec

section
variable {cfg : Config} {n : Nat} {L : Str → List Nat} {evs : List PruneEvent} {c : Cluster} {posts : List SendReq}

/-- What the store of a node tells after any history. -/
theorem node_told (hcl : AnyHistory cfg n L evs c posts) (i : Nat) :
    ((localMeta (c.store i)).map Prod.fst).Nodup ∧
    ∀ id x, (localMeta (c.store i)).lookup id = some x → ToldOf cfg.maxFudge (postedFor posts id) x := by
  obtain ⟨ops, o1, hsome⟩ := node_has hcl i
  have hc := hcl.some
  refine ⟨localMeta_keys hc o1, fun id x hx => ?_⟩
  have hput := hsome id
  have hlen : (putsOf ops id).length ≤ (postedFor posts id).length := by
    obtain ⟨rest, hr⟩ := hput
    have := hr.length_eq
    rw [List.length_append, List.length_map] at this
    omega
  have hback : ∀ e ∈ putsOf ops id, ∃ e' ∈ postedFor posts id, e'.timestamp = e.timestamp := by
    intro e he
    obtain ⟨rest, hr⟩ := hput
    obtain ⟨e', h1, rfl⟩ := List.mem_map.1 (hr.mem_iff.1 (List.mem_append_left _ he))
    exact ⟨e', h1, rfl⟩
  have hmem : (id, x) ∈ localMeta (c.store i) := by
    obtain ⟨l1, l2, hl, -⟩ := List.lookup_eq_some_iff.1 hx
    rw [hl]
    simp
  obtain ⟨⟨k, m⟩, hm, hk⟩ := List.mem_map.1 hmem
  injection hk with hk1 hk2
  simp only at hk1
  subst hk1
  rw [← hk2]
  obtain ⟨c1, -, -⟩ := C09_meta_agrees hc o1
  obtain ⟨h1, ⟨first, rest, he, h2, h3, -⟩, -⟩ := c1 k m hm
  obtain ⟨gh, hg, -⟩ := C10_bookkeeping hc o1
  have h4 := C10_conservation hc hg hm
  have h5 := hist_puts_le hg k
  obtain ⟨⟨k', s⟩, hin, hp'⟩ := List.mem_map.1 hm
  simp only [Prod.mk.injEq] at hp'
  obtain ⟨rfl, rfl⟩ := hp'
  have hexp := ((run_inv hc o1).1.idx.2 _ hin).expired
  have henv : (c.store i).envelopes k' = first :: rest.map Prod.snd := by
    unfold Store.envelopes
    rw [he]
    rfl
  refine ⟨?_, hexp, ?_, ?_, ?_⟩
  · rw [henv, List.length_cons] at h1
    simp only at h1 ⊢
    omega
  · simp only at h4 ⊢
    omega
  · obtain ⟨r, hr⟩ := stored_sub_put hc o1 k'
    obtain ⟨e', g1, g2⟩ := hback first (hr.mem_iff.1 (List.mem_append_left _ (by rw [henv]; exact List.mem_cons_self)))
    exact ⟨e', g1, by rw [g2]; exact h2, by rw [g2]; exact h3⟩
  · rcases newest_put hc o1 k' s (mem_idxLoad (run_inv hc o1).1.idx.1 hin) with h0 | ⟨e, g1, g2⟩
    · exact .inl h0
    · obtain ⟨e', g3, g4⟩ := hback e g1
      exact .inr ⟨e', g3, g4.trans g2⟩

theorem told_fits (hcl : AnyHistory cfg n L evs c posts) (hsm : SmallNumbers cfg.maxFudge posts) {id : Str}
    {x : WireMeta} (h : ToldOf cfg.maxFudge (postedFor posts id) x) : MetaInt64 x := by
  obtain ⟨h1, h2, h3, ⟨e, he, h4, h5⟩, h6⟩ := h
  have hf := hsm.few id
  have ht : ∀ e ∈ postedFor posts id, FitsInt64 e.timestamp := fun e he => (postedFor_arrived hcl.arrived e he).1.1
  have ht1 := ht e he
  have hend := hsm.early id e he
  intro f
  cases f with
  | count => show FitsInt64 x.count; unfold FitsInt64; omega
  | expired => show FitsInt64 x.expired; unfold FitsInt64; omega
  | oldest => show FitsInt64 x.oldest; unfold FitsInt64 at ht1 ⊢; omega
  | newest =>
    show FitsInt64 x.newest
    rcases h6 with h6 | ⟨e', he', h6⟩
    · rw [h6]; unfold FitsInt64; norm_num
    · rw [← h6]; exact ht e' he'

/-- What the node that is asked has of another after any history. -/
theorem part_told (hcl : AnyHistory cfg n L evs c posts) (hsm : SmallNumbers cfg.maxFudge posts) {j i : Nat}
    {p : Option (List (Str × WireMeta))} (h : MetaPart c j i p) {m : List (Str × WireMeta)} (hm : p = some m) :
    (m.map Prod.fst).Nodup ∧ ∀ s, m.lookup s = (localMeta (c.store i)).lookup s := by
  obtain ⟨hnd, hall⟩ := node_told hcl i
  cases h with
  | own => cases hm; exact ⟨hnd, fun s => rfl⟩
  | failed => cases hm
  | answered w _ hw =>
    unfold grpcMetaAnswer at hm
    split at hm
    · rename_i hle
      have hv : ValidMetaMap (sortKeys (localMeta (c.store i))) := by
        refine ⟨sortKeys_order _, fun q hq => ?_⟩
        have hf := told_fits hcl hsm (hall q.1 q.2 (lookup_of_mem hnd (sortKeys_mem hq)))
        exact ⟨hf .count, hf .expired, hf .oldest, hf .newest⟩
      have hd := (C115_meta false w _ (hw.trans (sortKeys_perm hnd).symm) hv (max_lt hle)).2
      rw [hd] at hm
      injection hm with hm
      subst hm
      exact ⟨((sortKeys_perm hnd).map Prod.fst).nodup_iff.2 hnd, fun s => sortKeys_lookup _ s⟩
    · cases hm

/-- What is put together: for each source what the last node tells that lists it. -/
theorem merged_told (hcl : AnyHistory cfg n L evs c posts) (hsm : SmallNumbers cfg.maxFudge posts) {j : Nat}
    {parts : List (Option (List (Str × WireMeta)))} (hparts : ∀ i p, parts[i]? = some p → MetaPart c j i p)
    {m : List (Str × WireMeta)} (hmerge : mergeMeta parts = some m) :
    (m.map Prod.fst).Nodup ∧
    (∀ s, m.lookup s = (parts.reverse.filterMap (fun a => a.bind (fun m => m.lookup s))).head?) ∧
    ∀ id x, m.lookup id = some x → ToldOf cfg.maxFudge (postedFor posts id) x := by
  have hpart : ∀ a ∈ parts, ∀ m, a = some m → ∃ i, (m.map Prod.fst).Nodup ∧
      ∀ s, m.lookup s = (localMeta (c.store i)).lookup s := by
    intro a ha m hm
    obtain ⟨i, hi⟩ := List.mem_iff_getElem?.1 ha
    rw [hm] at hi
    exact ⟨i, part_told hcl hsm (hparts i _ hi) rfl⟩
  have hlook := (C37_meta_merge parts (by
    intro m hm
    obtain ⟨i, h1, -⟩ := hpart _ hm m rfl
    exact h1)).2 m hmerge
  refine ⟨mergeMeta_keys parts hmerge, hlook, fun id x hx => ?_⟩
  rw [hlook id] at hx
  obtain ⟨a, ha, hb⟩ := List.mem_filterMap.1 (List.mem_of_mem_head? hx)
  cases a with
  | none => cases hb
  | some m1 =>
    obtain ⟨i, -, hl⟩ := hpart _ (List.mem_reverse.1 ha) m1 rfl
    have hb : m1.lookup id = some x := hb
    rw [hl id] at hb
    exact (node_told hcl i).2 id x hb

/-- **At any time Meta tells a user nothing but what was sent.** After any history of Sends,
deliveries, losses, new tables and crashes: whoever gets an answer has a valid token, and each
source in it is one that they may see and for which something was sent; no more is counted than
was sent, and the times are those of envelopes that were sent, the oldest up to `maxFudge` later.
With a valid token there is an answer, if it fits in a grpc message. -/
theorem C168_only (hcl : AnyHistory cfg n L evs c posts) (hsm : SmallNumbers cfg.maxFudge posts)
    {oauth : Str → Option UserCtx} {available : Str → List Str} {tok : Str} {j : Nat}
    {parts : List (Option (List (Str × WireMeta)))} {out : Option (List (Str × WireMeta))}
    (h : UserMeta oauth available c n j parts tok out) :
    (∀ m, out = some m → ∃ u, tok ≠ [] ∧ oauth tok = some u ∧ ∀ id x, m.lookup id = some x →
      (u.isAdmin = true ∨ id ∈ available tok) ∧ ToldOf cfg.maxFudge (postedFor posts id) x) ∧
    (tok ≠ [] → oauth tok ≠ none →
      (∀ m w, mergeMeta parts = some m → SameMap w m → (metaRespProto.encode w).length ≤ grpcMaxMessage) →
      ∃ m, out = some m) := by
  have hcopy := h
  obtain ⟨-, hparts, m, w, hmerge, hw, rfl⟩ := h
  obtain ⟨hnd, -, hsome⟩ := merged_told hcl hsm hparts hmerge
  have hval : ∀ p ∈ m, MetaInt64 p.2 := fun p hp => told_fits hcl hsm (hsome p.1 p.2 (lookup_of_mem hnd hp))
  constructor
  · intro m' hm'
    by_cases ht : tok = [] ∨ oauth tok = none
    · rw [C165_stranger hcopy ht] at hm'
      cases hm'
    · rw [not_or] at ht
      obtain ⟨u, hu⟩ := Option.ne_none_iff_exists'.1 ht.2
      refine ⟨u, ht.1, hu, fun id x hx => ?_⟩
      by_cases hfit : (metaRespProto.encode w).length ≤ grpcMaxMessage
      · obtain ⟨m2, g1, g2⟩ := C166_through (available := available) ht.1 hu hnd hval hw hfit
        rw [g1] at hm'
        injection hm' with hm'
        subst hm'
        rw [g2 id] at hx
        split at hx
        · rename_i hmay
          exact ⟨hmay, hsome id x hx⟩
        · cases hx
      · have hnone : metaThroughGateway (metaRespProto.encode w) = none := by
          unfold metaThroughGateway grpcMetaAnswer
          rw [if_neg hfit]
          rfl
        unfold userMetaAnswer at hm'
        rw [hnone, (C150_refused oauth available none tok).2 ht.1 (Option.isSome_iff_ne_none.2 ht.2) rfl] at hm'
        cases hm'
  · intro ht hu hfit
    obtain ⟨u, hu⟩ := Option.ne_none_iff_exists'.1 hu
    obtain ⟨m2, g1, -⟩ := C166_through (available := available) ht hu hnd hval hw (hfit m w hmerge hw)
    exact ⟨m2, g1⟩

/-- What the store of an owner tells once the cluster has recovered. -/
theorem owner_told {pre post : List XEvent} {before after : List SendReq} {owners : List Nat} {id : Str}
    (h : Recovered cfg n L (pre.map .step) post c before after owners id) (hpos : postedFor after id ≠ []) {k : Nat} (hk : k ∈ owners) :
    ∃ x log, (localMeta (c.store k)).lookup id = some x ∧ RecoveredLog before after id log ∧ Summary log x := by
  obtain ⟨hrun, hp1, hp2, ha, ht, hag, hne, hin, hcalm, hq, hs, hfew, hc, hcap⟩ := h
  rw [← List.map_append] at hrun
  have hrun := prune_only hrun
  rw [stepsOf_step] at hp1 ht hag
  have e1 := sentBy_posted hp1 (fun r hr => ha r (List.mem_append_left _ hr)) id
  have e2 := sentBy_posted hp2 (fun r hr => ha r (List.mem_append_right _ hr)) id
  have hone : owners.count k = 1 := by
    have hnd : owners.Nodup := by
      rw [← hag k (hin k hk)]; exact fairTables_nodup ht k id
    have := List.nodup_iff_count.1 hnd k
    have := List.count_pos_iff.2 hk
    omega
  obtain ⟨old, ho, hperm⟩ := calm_kept hrun ht hag hcalm hone (fun i => hq i k)
  obtain ⟨-, -, -, ops, o1, o2, o3⟩ := books_right hrun k
  rw [← o3 id] at hperm
  rw [e1] at ho
  obtain ⟨oldw, ho1, rfl⟩ := some_code ho
  rw [e2, ← List.map_append] at hperm
  have hall : SomeOf (putsOf ops id) ((postedFor (before ++ after) id).map envelopeCode) := by
    rw [postedFor_append, List.map_append]
    rw [List.map_append] at hperm
    refine someOf_trans (b := oldw.map envelopeCode ++ (postedFor after id).map envelopeCode)
      ⟨[], by rw [List.append_nil]; exact hperm⟩ ?_
    exact someOf_append ho ⟨[], by rw [List.append_nil]⟩
  have hlen : (oldw ++ postedFor after id).length ≤ (postedFor (before ++ after) id).length := by
    obtain ⟨rest, hrest⟩ := ho1
    have := hrest.length_eq
    rw [postedFor_append]
    simp only [List.length_append] at this ⊢
    omega
  have hsum := (store_summary hc o1 o2 (src := id) (log := oldw ++ postedFor after id)
    (spread_some hall (spread_code hs))
    (fun ts => Nat.le_trans (howMany_some hall ts) (by rw [howMany_code]; exact hfew ts)) hperm (by omega)).2
    (fun h => hpos (List.append_eq_nil_iff.1 h).2)
  obtain ⟨x, hx, hsx⟩ := hsum
  refine ⟨x, (oldw ++ postedFor after id).mergeSort fun a b => decide (a.timestamp ≤ b.timestamp), hx,
    ⟨⟨oldw, ho1, List.mergeSort_perm _ _⟩, ?_⟩, ?_⟩
  · have := List.pairwise_mergeSort (le := fun a b : WireEnvelope => decide (a.timestamp ≤ b.timestamp))
      (by intro a b d h1 h2; simp only [decide_eq_true_eq] at *; omega)
      (by intro a b; simp only [Bool.or_eq_true, decide_eq_true_eq]; omega) (oldw ++ postedFor after id)
    exact this.imp fun h => by simpa using h
  · have hm := List.mergeSort_perm (oldw ++ postedFor after id) fun a b => decide (a.timestamp ≤ b.timestamp)
    obtain ⟨g1, g2, ⟨e, he, g3⟩, g4, g5⟩ := hsx
    refine ⟨by rw [hm.length_eq]; exact g1, g2, ⟨e, hm.mem_iff.2 he, g3⟩, fun e he => g4 e (hm.mem_iff.1 he), ?_⟩
    rcases g5 with ⟨e', he', g5⟩ | ⟨g5, g6⟩
    · exact .inl ⟨e', hm.mem_iff.2 he', g5⟩
    · exact .inr ⟨g5, fun e he => g6 e (hm.mem_iff.1 he)⟩

/-- What an owner tells if nodes also pruned before the cluster recovered. -/
theorem owner_left {pre : List PruneEvent} {post : List XEvent} {before after : List SendReq} {owners : List Nat} {id : Str}
    (h : Recovered cfg n L pre post c before after owners id)
    (hany : AnyHistory cfg n L evs c (before ++ after)) (hpos : postedFor after id ≠ []) {k : Nat} (hk : k ∈ owners) :
    ∃ x, (localMeta (c.store k)).lookup id = some x ∧ ∃ log, RecoveredLog before after id log ∧
      SummaryLeft cfg.maxFudge (postedFor (before ++ after) id) log x := by
  obtain ⟨hrun, hp1, hp2, ha, ht, hag, hne, hin, hcalm, hq, hs, hfew, hc, hcap⟩ := h
  have e1 := sentBy_posted hp1 (fun r hr => ha r (List.mem_append_left _ hr)) id
  have e2 := sentBy_posted hp2 (fun r hr => ha r (List.mem_append_right _ hr)) id
  have e3 : sentBy (stepsOf pre ++ post) id = (postedFor (before ++ after) id).map envelopeCode := by
    rw [postedFor_append, List.map_append, ← e1, ← e2]
    simp [sentBy]
  obtain ⟨old, hold, hperm, ops, o1, -⟩ := pruned_holds hc hrun ht hag hin hcalm hq
    (by rw [e3]; exact spread_code hs) (fun ts => by rw [e3, howMany_code]; exact hfew ts)
    (by rw [e3, List.length_map]; exact hcap) hk
  rw [e1] at hold
  obtain ⟨oldw, ho1, rfl⟩ := some_code hold
  rw [e2, ← List.map_append] at hperm
  have hm := List.mergeSort_perm (oldw ++ postedFor after id) fun a b => decide (a.timestamp ≤ b.timestamp)
  have hsorted := List.pairwise_mergeSort (le := fun a b : WireEnvelope => decide (a.timestamp ≤ b.timestamp))
    (by intro a b c h1 h2; simp only [decide_eq_true_eq] at h1 h2 ⊢; omega)
    (by intro a b; simp only [Bool.or_eq_true, decide_eq_true_eq]; omega) (oldw ++ postedFor after id)
  generalize (oldw ++ postedFor after id).mergeSort (fun a b => decide (a.timestamp ≤ b.timestamp)) = log at hm hsorted
  have hheld : ((c.store k).envelopes id).Perm (log.map envelopeCode) := hperm.trans (hm.map _).symm
  obtain ⟨c1, -, c3⟩ := C09_meta_agrees hc o1
  have hne' : (c.store k).envelopes id ≠ [] := by
    intro h0
    rw [h0] at hperm
    have := List.map_eq_nil_iff.1 (List.Perm.eq_nil hperm.symm)
    exact hpos (List.append_eq_nil_iff.1 this).2
  obtain ⟨⟨k', m⟩, hmm, hk'⟩ := List.mem_map.1 ((c3 id).2 hne')
  simp only at hk'
  subst hk'
  have hlook := lookup_of_mem (localMeta_keys hc o1) (List.mem_map.2 ⟨_, hmm, rfl⟩)
  refine ⟨_, hlook, log, ⟨⟨oldw, ho1, hm⟩, hsorted.imp fun h => of_decide_eq_true h⟩,
    (node_told hany k).2 _ _ hlook, ?_, ?_, ?_⟩
  · show m.count = _
    rw [(c1 k' m hmm).1, hheld.length_eq, List.length_map]
  · obtain ⟨first, rest, he, h2, h3, -⟩ := (c1 k' m hmm).2.1
    have hf : first ∈ (c.store k).envelopes k' := by
      unfold Store.envelopes
      rw [he]
      exact List.mem_cons_self
    obtain ⟨e, hel, hee⟩ := List.mem_map.1 (hheld.mem_iff.1 hf)
    rw [← hee] at h2 h3
    exact ⟨e, hel, h2, h3⟩
  · intro e hel
    have hst := hheld.mem_iff.2 (List.mem_map.2 ⟨e, hel, rfl⟩)
    refine ⟨?_, (c1 k' m hmm).2.2 _ hst⟩
    obtain ⟨first, rest, he, h2, h3, hrest⟩ := (c1 k' m hmm).2.1
    obtain ⟨hi, hcfg⟩ := run_inv hc o1
    unfold Store.envelopes at hst
    obtain ⟨y, hy, hye⟩ := List.mem_map.1 hst
    have hle : m.oldest ≤ y.1 := by
      rw [he] at hy
      rcases List.mem_cons.1 hy with rfl | hy
      · exact Int.le_refl _
      · exact Int.le_of_lt (hrest y hy)
    have hnear : y.1 ≤ y.2.timestamp + cfg.maxFudge := by
      unfold Store.entries at hy
      split at hy
      · next s hl =>
        have := (idxOk_load hi.idx hl).near y hy
        rw [hcfg] at this
        exact this.2
      · cases hy
    rw [hye] at hnear
    exact Int.le_trans hle hnear

/-- If all that hold a source say the same of it, and one of them is heard, the user is told so. -/
theorem owners_say {P : WireMeta → Prop} {owners : List Nat} {id : Str}
    (howner : ∀ k ∈ owners, ∃ x, (localMeta (c.store k)).lookup id = some x ∧ P x)
    (hany : AnyHistory cfg n L evs c posts) (hsm : SmallNumbers cfg.maxFudge posts)
    (hgone : ∀ i, i < n → i ∉ owners → (c.store i).envelopes id = [])
    {oauth : Str → Option UserCtx} {available : Str → List Str} {tok : Str} {u : UserCtx} (ht : tok ≠ [])
    (hu : oauth tok = some u) (hmay : u.isAdmin = true ∨ id ∈ available tok) {j : Nat}
    {parts : List (Option (List (Str × WireMeta)))} {out : Option (List (Str × WireMeta))}
    (hout : UserMeta oauth available c n j parts tok out) (hheard : OwnerHeard (fun _ => owners) parts id)
    (hfits : ∀ m w, mergeMeta parts = some m → SameMap w m → (metaRespProto.encode w).length ≤ grpcMaxMessage) :
    ∃ m x, out = some m ∧ m.lookup id = some x ∧ P x := by
  obtain ⟨hlen, hparts, m, w, hmerge, hw, rfl⟩ := hout
  obtain ⟨hnd, hlook, hsome⟩ := merged_told hany hsm hparts hmerge
  have hval : ∀ p ∈ m, MetaInt64 p.2 := fun p hp => told_fits hany hsm (hsome p.1 p.2 (lookup_of_mem hnd hp))
  have hex : ∃ x, m.lookup id = some x := by
    obtain ⟨k, hk, m1, hm1⟩ := hheard
    obtain ⟨x, hx, -⟩ := howner k hk
    have hl := (part_told hany hsm (hparts k _ hm1) rfl).2 id
    rw [hx] at hl
    have hmem : x ∈ parts.reverse.filterMap (fun a => a.bind (fun m => m.lookup id)) :=
      List.mem_filterMap.2 ⟨some m1, List.mem_reverse.2 (List.mem_of_getElem? hm1), hl⟩
    rw [hlook id]
    cases hh : parts.reverse.filterMap (fun a => a.bind (fun m => m.lookup id)) with
    | nil => rw [hh] at hmem; cases hmem
    | cons y t => exact ⟨y, rfl⟩
  obtain ⟨x, hx⟩ := hex
  have hrec : P x := by
    have hx' := hx
    rw [hlook id] at hx'
    obtain ⟨a, ha, hb⟩ := List.mem_filterMap.1 (List.mem_of_mem_head? hx')
    cases a with
    | none => cases hb
    | some m1 =>
      obtain ⟨i, hi⟩ := List.mem_iff_getElem?.1 (List.mem_reverse.1 ha)
      have hb : m1.lookup id = some x := hb
      rw [(part_told hany hsm (hparts i _ hi) rfl).2 id] at hb
      have hin : i < n := by
        rw [← hlen]
        exact (List.getElem?_eq_some_iff.1 hi).1
      by_cases ho : i ∈ owners
      · obtain ⟨x', g1, g2⟩ := howner i ho
        rw [g1] at hb
        injection hb with hb
        subst hb
        exact g2
      · obtain ⟨ops, o1, -⟩ := node_has hany i
        obtain ⟨l1, l2, hl, -⟩ := List.lookup_eq_some_iff.1 hb
        have hmem : (id, x) ∈ localMeta (c.store i) := by rw [hl]; simp
        obtain ⟨q, hq, hqe⟩ := List.mem_map.1 hmem
        injection hqe with hq1 _
        exact absurd (hgone i hin ho) (((C09_meta_agrees hany.some o1).2.2 id).1 (List.mem_map.2 ⟨q, hq, hq1⟩))
  obtain ⟨m2, f1, f2⟩ := C166_through (available := available) ht hu hnd hval hw (hfits m w hmerge hw)
  exact ⟨m2, x, f1, by rw [f2, if_pos hmay]; exact hx, hrec⟩

/-- **Meta recovers too, unless a former owner still holds something.** From a time on at which all
nodes look up a source at the same nodes, if an owner is heard and no other node holds any of the
source, a user who may see it is told of all that was sent since then, together with nothing but
some of what was sent before. -/
theorem C168_recovers_partial {pre post : List XEvent} {before after : List SendReq} {owners : List Nat} {id : Str}
    (h : Recovered cfg n L (pre.map .step) post c before after owners id)
    (hany : AnyHistory cfg n L ((pre ++ post).map .step) c (before ++ after)) (hsm : SmallNumbers cfg.maxFudge (before ++ after))
    (hpos : postedFor after id ≠ []) (hgone : ∀ i, i < n → i ∉ owners → (c.store i).envelopes id = [])
    {oauth : Str → Option UserCtx} {available : Str → List Str} {tok : Str} {u : UserCtx} (ht : tok ≠ [])
    (hu : oauth tok = some u) (hmay : u.isAdmin = true ∨ id ∈ available tok) {j : Nat}
    {parts : List (Option (List (Str × WireMeta)))} {out : Option (List (Str × WireMeta))}
    (hout : UserMeta oauth available c n j parts tok out) (hheard : OwnerHeard (fun _ => owners) parts id)
    (hfits : ∀ m w, mergeMeta parts = some m → SameMap w m → (metaRespProto.encode w).length ≤ grpcMaxMessage) :
    ∃ m x log, out = some m ∧ m.lookup id = some x ∧ RecoveredLog before after id log ∧ Summary log x := by
  obtain ⟨m, x, h1, h2, log, h3, h4⟩ := owners_say (P := fun x => ∃ log, RecoveredLog before after id log ∧ Summary log x)
    (fun k hk => by
      obtain ⟨x, log, g1, g2⟩ := owner_told h hpos hk
      exact ⟨x, g1, log, g2⟩) hany hsm hgone ht hu hmay hout hheard hfits
  exact ⟨m, x, log, h1, h2, h3, h4⟩

/-- A recovery is a history, if also since then no table named a node twice for an id. -/
theorem recovered_any {pre : List PruneEvent} {post : List XEvent} {before after : List SendReq} {owners : List Nat} {id : Str}
    (h : Recovered cfg n L pre post c before after owners id) (ht : FairTables L (stepsOf pre ++ post)) :
    AnyHistory cfg n L (pre ++ post.map .step) c (before ++ after) := by
  have hst : stepsOf (pre ++ post.map .step) = stepsOf pre ++ post := by
    have := stepsOf_step post
    unfold stepsOf at this ⊢
    rw [List.filterMap_append, this]
  refine ⟨h.run, ?_, h.arrived, by rw [hst]; exact ht, h.some⟩
  have h1 := h.postedBefore
  have h2 := h.postedAfter
  rw [hst]
  unfold Posted clientsOf at *
  rw [List.filterMap_append, List.filter_append]
  exact List.rel_append h1 h2

/-- **The same if nodes also pruned** before the cluster recovered: what was pruned is told of as
expired, and the oldest time may be up to the fudge too late. -/
theorem C168_pruned_partial {pre : List PruneEvent} {post : List XEvent} {before after : List SendReq} {owners : List Nat} {id : Str}
    (h : Recovered cfg n L pre post c before after owners id)
    (htab : FairTables L (stepsOf pre ++ post)) (hsm : SmallNumbers cfg.maxFudge (before ++ after))
    (hpos : postedFor after id ≠ []) (hgone : ∀ i, i < n → i ∉ owners → (c.store i).envelopes id = [])
    {oauth : Str → Option UserCtx} {available : Str → List Str} {tok : Str} {u : UserCtx} (ht : tok ≠ [])
    (hu : oauth tok = some u) (hmay : u.isAdmin = true ∨ id ∈ available tok) {j : Nat}
    {parts : List (Option (List (Str × WireMeta)))} {out : Option (List (Str × WireMeta))}
    (hout : UserMeta oauth available c n j parts tok out) (hheard : OwnerHeard (fun _ => owners) parts id)
    (hfits : ∀ m w, mergeMeta parts = some m → SameMap w m → (metaRespProto.encode w).length ≤ grpcMaxMessage) :
    ∃ m x log, out = some m ∧ m.lookup id = some x ∧ RecoveredLog before after id log ∧
      SummaryLeft cfg.maxFudge (postedFor (before ++ after) id) log x := by
  have hany := recovered_any h htab
  obtain ⟨m, x, h1, h2, log, h3, h4⟩ := owners_say (fun k hk => owner_left h hany hpos hk) hany hsm hgone ht hu hmay
    hout hheard hfits
  exact ⟨m, x, log, h1, h2, h3, h4⟩

end

/-! ## A source that has moved -/

/-- The source belongs to node 1, which takes a log; then all nodes are told that it is with node 0. -/
def movedLog (m : Option Message) : List XEvent :=
  [] ++ [.client 1 { envelopes := some [storedLog 1 m] }] ++ [.retable 0 (fun _ => [0])] ++ [.retable 1 (fun _ => [0])]

/-- Node 0 takes a later one. -/
def afterMove (m : Option Message) : List XEvent := [.client 0 { envelopes := some [storedLog 2 m] }]

/-- What is told of a source with one log at time `t`. -/
def oneTold (t : Int) : List (Str × WireMeta) := [("a".toList, ⟨1, 0, t, t⟩)]

theorem movedLog_runs (m m' : Option Message) : ∃ c : Cluster,
    XRun { maxPerSource := 5 } (newCluster { maxPerSource := 5 } 2 (fun _ _ => [1])) (movedLog m ++ afterMove m') c ∧
    (∀ j i, c.queue j i = []) ∧ localMeta (c.store 0) = oneTold 2 ∧ localMeta (c.store 1) = oneTold 1 := by
  have he : movedLog m ++ afterMove m' = [] ++ [.client 1 { envelopes := some [storedLog 1 m] }] ++
    [.retable 0 (fun _ => [0])] ++ [.retable 1 (fun _ => [0])] ++
    [.client 0 { envelopes := some [storedLog 2 m'] }] := rfl
  rw [he]
  refine ⟨_, XRun.snoc (XRun.snoc (XRun.snoc (XRun.snoc (XRun.nil _) (.client (.client (show 1 < 2 by decide)
      ⟨fun _ => true, _, _, .proxied _ rfl [storedLog 1 m] rfl [(1, [storedLog 1 m])] (List.Perm.refl _),
        .cons 0 rfl (.nil _), rfl⟩)))
      (.retable .retable)) (.retable .retable))
      (.client (.client (show 0 < 2 by decide)
        ⟨fun _ => true, _, _, .proxied _ rfl [storedLog 2 m'] rfl [(0, [storedLog 2 m'])] (List.Perm.refl _),
          .cons 0 rfl (.nil _), rfl⟩)), ?_, rfl, rfl⟩
  intro j i
  simp only [newCluster]
  by_cases h1 : j = 0 <;> by_cases h2 : j = 1 <;> by_cases h3 : i = 0 <;> by_cases h4 : i = 1 <;>
    simp_all [sentTo] <;> omega

theorem oneTold_bytes (t : Int) : (metaRespProto.encode (oneTold t)).length ≤ grpcMaxMessage := by
  have := metaEntry_len ("a".toList, ⟨1, 0, t, t⟩) 1 (show (utf8Bytes "a".toList).length ≤ 1 by decide +kernel) (by unfold grpcMaxMessage; norm_num)
  exact le_trans this (by unfold grpcMaxMessage; norm_num)

theorem oneTold_int64 {t : Int} (ht : FitsInt64 t) : ∀ p ∈ oneTold t, MetaInt64 p.2 := by
  intro p hp f
  rw [oneTold, List.mem_singleton] at hp
  subst hp
  cases f
  · show FitsInt64 1; unfold FitsInt64; norm_num
  · show FitsInt64 0; unfold FitsInt64; norm_num
  · exact ht
  · exact ht

theorem oneTold_answer {t : Int} (ht : FitsInt64 t) :
    grpcMetaAnswer (metaRespProto.encode (oneTold t)) = some (oneTold t) := by
  have hv : ValidMetaMap (oneTold t) := by
    refine ⟨List.pairwise_singleton _ _, fun q hq => ?_⟩
    have hf := oneTold_int64 ht q hq
    exact ⟨hf .count, hf .expired, hf .oldest, hf .newest⟩
  have hb := oneTold_bytes t
  unfold grpcMetaAnswer
  rw [if_pos hb]
  exact (C115_meta false _ _ (List.Perm.refl _) hv (max_lt hb)).2

theorem oneTold_part {c : Cluster} {j i : Nat} {p : Option (List (Str × WireMeta))} {t : Int} (ht : FitsInt64 t)
    (hl : localMeta (c.store i) = oneTold t) (h : MetaPart c j i p) (hp : p ≠ none) : p = some (oneTold t) := by
  cases h with
  | own => rw [hl]
  | failed => exact absurd rfl hp
  | answered w _ hw =>
    rw [hl] at hw
    rw [List.perm_singleton.1 hw]
    exact oneTold_answer ht

/-- **Meta can go on telling of a former owner.** A source moves from node 1 to node 0, with no
crash and nothing lost; a log is sent since, and Reads return it. All nodes answer; but whichever
of them a user asks, they are told of one envelope, and that the newest is the one from before
the move. -/
theorem C168_moved_false : ∃ (pre post : List XEvent) (c : Cluster),
    Recovered { maxPerSource := 5 } 2 (fun _ => [1]) (pre.map .step) post c
      [{ envelopes := some [appLog 1 [104, 105]] }] [{ envelopes := some [appLog 2 [33]] }] [0] "a".toList ∧
    AnyHistory { maxPerSource := 5 } 2 (fun _ => [1]) ((pre ++ post).map .step) c
      ([{ envelopes := some [appLog 1 [104, 105]] }] ++ [{ envelopes := some [appLog 2 [33]] }]) ∧
    (∀ k, StaysUp k (pre ++ post) ∧ ∀ i lost, XEvent.drop i k lost ∉ pre ++ post) ∧
    ∀ (oauth : Str → Option UserCtx) (available : Str → List Str) (tok : Str) (u : UserCtx), tok ≠ [] →
      oauth tok = some u → (u.isAdmin = true ∨ "a".toList ∈ available tok) → ∀ j, j < 2 →
      (∃ parts out, UserMeta oauth available c 2 j parts tok out ∧ none ∉ parts) ∧
      ∀ parts out, UserMeta oauth available c 2 j parts tok out → none ∉ parts →
        ∃ m, out = some m ∧ m.lookup "a".toList = some ⟨1, 0, 1, 1⟩ := by
  have a1 := appLog_arrived 1 (by unfold FitsInt64; norm_num) [104, 105] (by decide)
  have a2 := appLog_arrived 2 (by unfold FitsInt64; norm_num) [33] (by decide)
  have f1 : FitsInt64 1 := by unfold FitsInt64; norm_num
  have f2 : FitsInt64 2 := by unfold FitsInt64; norm_num
  obtain ⟨c, hrun, hq, hm0, hm1⟩ := movedLog_runs ((appLog 1 [104, 105]).message.map messageCode)
    ((appLog 2 [33]).message.map messageCode)
  have hpf : postedFor ([{ envelopes := some [appLog 1 [104, 105]] }] ++ [{ envelopes := some [appLog 2 [33]] }])
      "a".toList = [appLog 1 [104, 105], appLog 2 [33]] := by
    simp [postedFor, appLog]
  have hp1 : Posted (clientsOf (movedLog ((appLog 1 [104, 105]).message.map messageCode)))
      [{ envelopes := some [appLog 1 [104, 105]] }] := by
    have := postedOne rfl a1 oneLog_bytes.1
    cases this with
    | cons h t =>
      obtain ⟨i, w, r', g1, g2, g3, g4, g5⟩ := h
      injection g5 with g5 g6
      exact List.Forall₂.cons ⟨1, w, r', g1, g2, g3, g4, by rw [g6]⟩ t
  have hp2 : Posted (clientsOf (afterMove ((appLog 2 [33]).message.map messageCode)))
      [{ envelopes := some [appLog 2 [33]] }] := postedOne rfl a2 oneLog_bytes.2
  have harr : ∀ r ∈ ([{ envelopes := some [appLog 1 [104, 105]] }] ++ [{ envelopes := some [appLog 2 [33]] }] : List SendReq),
      ∀ e ∈ r.envelopes.getD [], Arrived e := by
    intro r hr e he
    simp only [List.cons_append, List.nil_append, List.mem_cons, List.not_mem_nil, or_false] at hr
    rcases hr with rfl | rfl <;> simp at he <;> subst he
    · exact a1
    · exact a2
  refine ⟨_, _, c, recovered_plain hrun hp1 hp2 harr ?_ ?_ (by simp) (by simp) ?_ ?_ ?_ ?_ (by decide) ?_,
    any_plain hrun ?_ harr ?_ (by decide), ?_, ?_⟩
  · refine ⟨fun _ => by simp, fun i l hm id => ?_⟩
    simp [movedLog] at hm
    rcases hm with hm | hm <;> (rw [hm.2]; simp)
  · intro j hj
    have : j = 0 ∨ j = 1 := by omega
    rcases this with rfl | rfl <;> rfl
  · intro ev hev
    simp [afterMove] at hev
    subst hev
    rfl
  · intro i k e he
    rw [hq] at he
    cases he
  · rw [hpf]
    intro x hx y hy hlt
    simp only [List.mem_cons, List.not_mem_nil, or_false] at hx hy
    rcases hx with rfl | rfl <;> rcases hy with rfl | rfl
    · exact absurd hlt (lt_irrefl (1 : Int))
    · show (1 : Int) + howManyWire _ 1 ≤ 2
      simp [howManyWire, appLog]
    · exact absurd hlt (by show ¬ (2 : Int) < 1; omega)
    · exact absurd hlt (lt_irrefl (2 : Int))
  · intro ts
    rw [hpf]
    exact le_trans (List.length_filter_le ..) (by decide)
  · rw [hpf]; decide
  · cases hp1 with
    | cons h t => cases hp2 with
      | cons h' t' => exact List.Forall₂.cons h (List.Forall₂.cons h' List.Forall₂.nil)
  · refine ⟨fun _ => by simp, fun i l hm id => ?_⟩
    simp [movedLog, afterMove] at hm
    rcases hm with hm | hm <;> (rw [hm.2]; simp)
  · intro k
    refine ⟨fun lost h => ?_, fun i lost h => ?_⟩ <;> simp [movedLog, afterMove] at h
  · intro oauth available tok u ht hu hmay j hj
    have hmerge : mergeMeta [some (oneTold 2), some (oneTold 1)] = some (oneTold 1) := by decide +kernel
    constructor
    · refine ⟨[some (oneTold 2), some (oneTold 1)], _, ⟨rfl, ?_, oneTold 1, oneTold 1, hmerge, List.Perm.refl _, rfl⟩,
        by simp⟩
      intro i p hp
      have hi : i = 0 ∨ i = 1 := by
        have := (List.getElem?_eq_some_iff.1 hp).1
        simp at this
        omega
      rcases hi with rfl | rfl
      · cases hp
        by_cases h0 : (0 : Nat) = j
        · rw [← hm0]; exact .own h0
        · have := MetaPart.answered (c := c) (j := j) (i := 0) (oneTold 2) h0 (by rw [hm0]; exact List.Perm.refl _)
          rwa [oneTold_answer f2] at this
      · cases hp
        by_cases h0 : (1 : Nat) = j
        · rw [← hm1]; exact .own h0
        · have := MetaPart.answered (c := c) (j := j) (i := 1) (oneTold 1) h0 (by rw [hm1]; exact List.Perm.refl _)
          rwa [oneTold_answer f1] at this
    · rintro parts out ⟨hlen, hparts, m, w, hm, hw, rfl⟩ hno
      obtain ⟨p0, p1, rfl⟩ := List.length_eq_two.1 hlen
      have e0 := oneTold_part f2 hm0 (hparts 0 p0 rfl) (fun h => hno (by simp [h]))
      have e1 := oneTold_part f1 hm1 (hparts 1 p1 rfl) (fun h => hno (by simp [h]))
      rw [e0, e1, hmerge] at hm
      injection hm with hm
      subst hm
      have hw' : w = oneTold 1 := List.perm_singleton.1 hw
      subst hw'
      obtain ⟨m', g1, g2⟩ := C166_through (available := available) ht hu (m := oneTold 1) (List.nodup_singleton _)
        (oneTold_int64 f1) (List.Perm.refl _) (oneTold_bytes 1)
      refine ⟨m', g1, ?_⟩
      rw [g2, if_pos hmay]
      rfl

/-- A case of `C168_only`: a user asks after a source has moved, and gets an answer. -/
example : ∃ evs c posts, AnyHistory { maxPerSource := 5 } 2 (fun _ => [1]) evs c posts ∧
    SmallNumbers ({ maxPerSource := 5 } : Config).maxFudge posts ∧
    ∃ parts out, UserMeta doorUser (fun _ => ["a".toList]) c 2 0 parts "t".toList out ∧ out.isSome = true := by
  obtain ⟨pre, post, c, -, h, -, hall⟩ := C168_moved_false
  obtain ⟨⟨parts, out, h1, h2⟩, h3⟩ := hall doorUser (fun _ => ["a".toList]) "t".toList ⟨false, "t".toList, 0⟩ (by decide)
    (show doorUser "t".toList = _ by decide) (.inr (List.mem_singleton.2 rfl)) 0 (by decide)
  obtain ⟨m, rfl, -⟩ := h3 parts out h1 h2
  refine ⟨_, c, _, h, ⟨fun id => ?_, fun id e he => ?_⟩, parts, _, h1, rfl⟩
  · refine lt_of_le_of_lt (List.length_filter_le ..) ?_
    simp
  · have := (List.mem_filter.1 he).1
    simp at this
    rcases this with rfl | rfl
    · show (1 : Int) + ((4000 : Nat) : Int) < 2 ^ 63
      norm_num
    · show (2 : Int) + ((4000 : Nat) : Int) < 2 ^ 63
      norm_num

/-! ## A node that has started again -/

/-- The only node takes a log, crashes, and is given its ranges again. -/
def startedAgain (m : Option Message) : List XEvent :=
  [] ++ [.client 0 { envelopes := some [storedLog 1 m] }] ++ [.crash 0 (fun _ => [])] ++ [.retable 0 (fun _ => [0])]

theorem startedAgain_runs (m m' : Option Message) : ∃ c : Cluster,
    XRun { maxPerSource := 5 } (newCluster { maxPerSource := 5 } 1 (fun _ _ => [0])) (startedAgain m ++ afterMove m') c ∧
    (∀ j i, c.queue j i = []) ∧ localMeta (c.store 0) = oneTold 2 ∧ 0 < c.n ∧
    (c.store 0).total = 1 ∧ (c.store 0).g.count = 1 := by
  have he : startedAgain m ++ afterMove m' = [] ++ [.client 0 { envelopes := some [storedLog 1 m] }] ++
    [.crash 0 (fun _ => [])] ++ [.retable 0 (fun _ => [0])] ++
    [.client 0 { envelopes := some [storedLog 2 m'] }] := rfl
  rw [he]
  refine ⟨_, XRun.snoc (XRun.snoc (XRun.snoc (XRun.snoc (XRun.nil _) (.client (.client (show 0 < 1 by decide)
      ⟨fun _ => true, _, _, .proxied _ rfl [storedLog 1 m] rfl [(0, [storedLog 1 m])] (List.Perm.refl _),
        .cons 0 rfl (.nil _), rfl⟩)))
      (xcrash (show 0 < 1 by decide) ?_)) (.retable .retable))
      (.client (.client (show 0 < 1 by decide)
        ⟨fun _ => true, _, _, .proxied _ rfl [storedLog 2 m'] rfl [(0, [storedLog 2 m'])] (List.Perm.refl _),
          .cons 0 rfl (.nil _), rfl⟩)), ?_, rfl, show 0 < 1 by decide, rfl, rfl⟩
  · intro b
    simp only [newCluster]
    by_cases h2 : b = 0
    · simp [h2, sentTo]
    · have : ¬ 0 = b := fun h => h2 h.symm
      simp_all [sentTo]
  · intro j i
    simp only [newCluster]
    by_cases h1 : j = 0 <;> by_cases h3 : i = 0 <;> simp_all [sentTo] <;> omega

/-- A case of `C168_recovers_partial`: the user is told of the log that was sent since the start. -/
example : ∃ (pre post : List XEvent) (c : Cluster), Recovered { maxPerSource := 5 } 1 (fun _ => [0]) (pre.map .step) post c
      [{ envelopes := some [appLog 1 [104, 105]] }] [{ envelopes := some [appLog 2 [33]] }] [0] "a".toList ∧
    ∃ parts out m x log, UserMeta doorUser (fun _ => ["a".toList]) c 1 0 parts "t".toList out ∧ out = some m ∧
      m.lookup "a".toList = some x ∧ RecoveredLog [{ envelopes := some [appLog 1 [104, 105]] }]
        [{ envelopes := some [appLog 2 [33]] }] "a".toList log ∧ Summary log x ∧
      -- and a case of `C168_only` and `C167_only` in which the node then prunes what it holds
      ∃ evs c', PruneStep { maxPerSource := 5 } c (.prune 0) c' ∧
        AnyHistory { maxPerSource := 5 } 1 (fun _ => [0]) (evs ++ [.prune 0]) c'
          ([{ envelopes := some [appLog 1 [104, 105]] }] ++ [{ envelopes := some [appLog 2 [33]] }]) ∧
        (c.store 0).total = 1 ∧ (c'.store 0).total = 0 := by
  have a1 := appLog_arrived 1 (by unfold FitsInt64; norm_num) [104, 105] (by decide)
  have a2 := appLog_arrived 2 (by unfold FitsInt64; norm_num) [33] (by decide)
  obtain ⟨c, hrun, hq, hm0, hn0, hpr0, hpr1⟩ := startedAgain_runs ((appLog 1 [104, 105]).message.map messageCode)
    ((appLog 2 [33]).message.map messageCode)
  have hpf : postedFor ([{ envelopes := some [appLog 1 [104, 105]] }] ++ [{ envelopes := some [appLog 2 [33]] }])
      "a".toList = [appLog 1 [104, 105], appLog 2 [33]] := by
    simp [postedFor, appLog]
  have hp1 : Posted (clientsOf (startedAgain ((appLog 1 [104, 105]).message.map messageCode)))
      [{ envelopes := some [appLog 1 [104, 105]] }] := postedOne rfl a1 oneLog_bytes.1
  have hp2 : Posted (clientsOf (afterMove ((appLog 2 [33]).message.map messageCode)))
      [{ envelopes := some [appLog 2 [33]] }] := postedOne rfl a2 oneLog_bytes.2
  have harr : ∀ r ∈ ([{ envelopes := some [appLog 1 [104, 105]] }] ++ [{ envelopes := some [appLog 2 [33]] }] : List SendReq),
      ∀ e ∈ r.envelopes.getD [], Arrived e := by
    intro r hr e he
    simp only [List.cons_append, List.nil_append, List.mem_cons, List.not_mem_nil, or_false] at hr
    rcases hr with rfl | rfl <;> simp at he <;> subst he
    · exact a1
    · exact a2
  have hrec : Recovered { maxPerSource := 5 } 1 (fun _ => [0])
      ((startedAgain ((appLog 1 [104, 105]).message.map messageCode)).map .step)
      (afterMove ((appLog 2 [33]).message.map messageCode)) c
      [{ envelopes := some [appLog 1 [104, 105]] }] [{ envelopes := some [appLog 2 [33]] }] [0] "a".toList := by
    refine recovered_plain hrun hp1 hp2 harr ?_ ?_ (by simp) (by simp) ?_ ?_ ?_ ?_ (by decide) ?_
    · refine ⟨fun _ => by simp, fun i l hm id => ?_⟩
      simp [startedAgain] at hm
      rw [hm.2]; simp
    · intro j hj
      have : j = 0 := by omega
      subst this
      rfl
    · intro ev hev
      simp [afterMove] at hev
      subst hev
      rfl
    · intro i k e he
      rw [hq] at he
      cases he
    · rw [hpf]
      intro x hx y hy hlt
      simp only [List.mem_cons, List.not_mem_nil, or_false] at hx hy
      rcases hx with rfl | rfl <;> rcases hy with rfl | rfl
      · exact absurd hlt (lt_irrefl (1 : Int))
      · show (1 : Int) + howManyWire _ 1 ≤ 2
        simp [howManyWire, appLog]
      · exact absurd hlt (by show ¬ (2 : Int) < 1; omega)
      · exact absurd hlt (lt_irrefl (2 : Int))
    · intro ts
      rw [hpf]
      exact le_trans (List.length_filter_le ..) (by decide)
    · rw [hpf]; decide
  have hany : AnyHistory { maxPerSource := 5 } 1 (fun _ => [0])
      ((startedAgain ((appLog 1 [104, 105]).message.map messageCode) ++
        afterMove ((appLog 2 [33]).message.map messageCode)).map .step) c
      ([{ envelopes := some [appLog 1 [104, 105]] }] ++ [{ envelopes := some [appLog 2 [33]] }]) := by
    refine any_plain hrun ?_ harr ?_ (by decide)
    · cases hp1 with
      | cons h t => cases hp2 with
        | cons h' t' => exact List.Forall₂.cons h (List.Forall₂.cons h' List.Forall₂.nil)
    · refine ⟨fun _ => by simp, fun i l hm id => ?_⟩
      simp [startedAgain, afterMove] at hm
      rw [hm.2]; simp
  have hsm : SmallNumbers ({ maxPerSource := 5 } : Config).maxFudge
      ([{ envelopes := some [appLog 1 [104, 105]] }] ++ [{ envelopes := some [appLog 2 [33]] }]) := by
    refine ⟨fun id => ?_, fun id e he => ?_⟩
    · refine lt_of_le_of_lt (List.length_filter_le ..) ?_
      simp
    · have := (List.mem_filter.1 he).1
      simp at this
      rcases this with rfl | rfl
      · show (1 : Int) + ((4000 : Nat) : Int) < 2 ^ 63
        norm_num
      · show (2 : Int) + ((4000 : Nat) : Int) < 2 ^ 63
        norm_num
  have hmerge : mergeMeta [some (oneTold 2)] = some (oneTold 2) := by decide +kernel
  have hout : UserMeta doorUser (fun _ => ["a".toList]) c 1 0 [some (oneTold 2)] "t".toList
      (userMetaAnswer doorUser (fun _ => ["a".toList]) "t".toList (metaRespProto.encode (oneTold 2))) := by
    refine ⟨rfl, fun i p hp => ?_, oneTold 2, oneTold 2, hmerge, List.Perm.refl _, rfl⟩
    have hi : i = 0 := by
      have := (List.getElem?_eq_some_iff.1 hp).1
      simp at this
      omega
    subst hi
    cases hp
    rw [← hm0]
    exact .own rfl
  obtain ⟨m, x, log, g1, g2, g3, g4⟩ := C168_recovers_partial hrec hany hsm (by simp [postedFor, appLog])
    (fun i hi h => absurd (by simp; omega) h) (u := ⟨false, "t".toList, 0⟩) (by decide)
    (show doorUser "t".toList = _ by decide) (.inr (List.mem_singleton.2 rfl)) hout
    ⟨0, by simp, oneTold 2, rfl⟩ (fun m w hm hw => by
      rw [hmerge] at hm
      injection hm with hm
      subst hm
      have hw' : w = oneTold 2 := List.perm_singleton.1 hw
      rw [hw']
      exact oneTold_bytes 2)
  obtain ⟨ops, o1, -⟩ := node_has hany 0
  have hreq : pruneRequest (fun _ => 1) (c.store 0) = 1 := by simp [pruneRequest, hpr1]
  obtain ⟨st', ht0⟩ : ∃ st', truncate (fun _ => 1) (c.store 0).index 0 (c.store 0) = some st' := by
    have := (C13_prune_crash_iff (by decide) o1 (fun _ => 1) (List.Perm.refl _) 0).not.2 (by rw [hreq, hpr0]; omega)
    exact Option.ne_none_iff_exists'.1 this
  have hst0 := (C12_prune_oldest (by decide) o1 (List.Perm.refl _) ht0).1
  rw [hreq, hpr0] at hst0
  have hpr : PruneStep { maxPerSource := 5 } c (.prune 0) { c with store := fun k => if k = 0 then st' else c.store k } :=
    .prune hn0 (List.Perm.refl _) ht0
  exact ⟨_, _, c, hrec, _, _, m, x, log, hout, g1, g2, g3, g4, _, _, hpr, any_prune hany hpr, hpr0, by show st'.total = 0; omega⟩

/-- A case of `C168_pruned_partial`, in which the node pruned the first log before it took the second:
whoever asks it, and gets an answer that fits, is told of the second at least. -/
example : ∃ pre post c, PruneEvent.prune 0 ∈ pre ∧
    Recovered { maxPerSource := 5 } 1 (fun _ => [0]) pre post c
      [{ envelopes := some [appLog 1 [104, 105]] }] [{ envelopes := some [appLog 2 [33]] }] [0] "a".toList ∧
    ∀ parts out, UserMeta doorUser (fun _ => ["a".toList]) c 1 0 parts "t".toList out →
      OwnerHeard (fun _ => [0]) parts "a".toList →
      (∀ m w, mergeMeta parts = some m → SameMap w m → (metaRespProto.encode w).length ≤ grpcMaxMessage) →
      ∃ m x, out = some m ∧ m.lookup "a".toList = some x ∧ 1 ≤ x.count ∧ x.count + x.expired ≤ 2 ∧ 2 ≤ x.newest := by
  obtain ⟨c1, c2, pre, post, c, -, -, -, hin, hrec, htab⟩ := recovered_pruned
  refine ⟨pre, post, c, hin, hrec, fun parts out hout hheard hfits => ?_⟩
  have hpf : postedFor ([{ envelopes := some [appLog 1 [104, 105]] }] ++ [{ envelopes := some [appLog 2 [33]] }])
      "a".toList = [appLog 1 [104, 105], appLog 2 [33]] := by
    simp [postedFor, appLog]
  have hsm : SmallNumbers ({ maxPerSource := 5 } : Config).maxFudge
      ([{ envelopes := some [appLog 1 [104, 105]] }] ++ [{ envelopes := some [appLog 2 [33]] }]) := by
    refine ⟨fun id => ?_, fun id e he => ?_⟩
    · refine lt_of_le_of_lt (List.length_filter_le ..) ?_
      simp
    · have := (List.mem_filter.1 he).1
      simp at this
      rcases this with rfl | rfl
      · show (1 : Int) + ((4000 : Nat) : Int) < 2 ^ 63
        norm_num
      · show (2 : Int) + ((4000 : Nat) : Int) < 2 ^ 63
        norm_num
  obtain ⟨m, x, log, g1, g2, ⟨⟨old, -, g3⟩, -⟩, ⟨t1, -, t3, -⟩, -, -, g4⟩ := C168_pruned_partial hrec htab hsm
    (by simp [postedFor, appLog]) (fun i hi h => absurd (by simp; omega) h) (u := ⟨false, "t".toList, 0⟩) (by decide)
    (show doorUser "t".toList = _ by decide) (.inr (List.mem_singleton.2 rfl)) hout hheard hfits
  refine ⟨m, x, g1, g2, t1, ?_, ?_⟩
  · rw [hpf] at t3
    exact t3
  · have := (g4 (appLog 2 [33]) (g3.mem_iff.2 (List.mem_append_right _ (by simp [postedFor, appLog])))).2
    exact this

end LogCache
