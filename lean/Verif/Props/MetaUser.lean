import Verif.Spec.MetaUser
import Verif.Props.MetaEnd
import Verif.Props.MetaCluster

/-!
# The age of what a user learns from Meta (C166)
-/

namespace LogCache
open Spec

/-- Whatever a node tells in whatever order, as long as it fits in a message: the user's client
returns what was told of the sources the user may see, and nothing else. -/
theorem C166_through {oauth : Str → Option UserCtx} {available : Str → List Str} {tok : Str} {u : UserCtx}
    (ht : tok ≠ []) (hu : oauth tok = some u) {m w : List (Str × WireMeta)} (hnd : (m.map Prod.fst).Nodup)
    (hval : ∀ p ∈ m, MetaInt64 p.2) (hw : SameMap w m) (hfit : (metaRespProto.encode w).length ≤ grpcMaxMessage) :
    ∃ m', userMetaAnswer oauth available tok (metaRespProto.encode w) = some m' ∧
      ∀ id, m'.lookup id = if u.isAdmin = true ∨ id ∈ available tok then m.lookup id else none := by
  have hval : ∀ p ∈ m, FitsInt64 p.2.count ∧ FitsInt64 p.2.expired ∧ FitsInt64 p.2.oldest ∧ FitsInt64 p.2.newest :=
    fun p hp => ⟨hval p hp .count, hval p hp .expired, hval p hp .oldest, hval p hp .newest⟩
  have hvm : ValidMetaMap (sortKeys m) := ⟨sortKeys_order m, fun p hp => hval p (sortKeys_mem hp)⟩
  have hthrough : metaThroughGateway (metaRespProto.encode w) = some (sortKeys m) := by
    unfold metaThroughGateway grpcMetaAnswer
    rw [if_pos hfit, (C115_meta false w _ (hw.trans (sortKeys_perm hnd).symm) hvm (max_lt hfit)).2]
    exact C113_meta _ hvm
  obtain ⟨body, m', h1, h2, h3⟩ := C150_user oauth available (sortKeys m) tok u ht hu
    (((sortKeys_perm hnd).map Prod.fst).nodup_iff.2 hnd) hvm.2
  refine ⟨m', ?_, fun id => ?_⟩
  · unfold userMetaAnswer
    rw [hthrough, h1]
    exact h2
  · rw [h3 id, sortKeys_lookup]

theorem lookup_field (f : WireMeta → Int) (m : List (Str × WireMeta)) (id : Str) :
    (m.map fun p => (p.1, f p.2)).lookup id = (m.lookup id).map f := by
  induction m with
  | nil => rfl
  | cons p m ih =>
    obtain ⟨k, x⟩ := p
    rw [List.map_cons, List.lookup_cons, List.lookup_cons, ih]
    cases id == k <;> rfl

/-- What a user gets. -/
theorem userMetaAt_lookup {oauth : Str → Option UserCtx} {available : Str → List Str} {tok : Str} {u : UserCtx}
    (ht : tok ≠ []) (hu : oauth tok = some u) {n : Nat} {dur l1 l2 : Int} (hd : 0 ≤ dur)
    {metaAt : Nat → Int → Str → Option Int} {evs : List (Int × MetaNetAct Int)} {clock : Int} {s : MetaNet Int}
    (h : MetaNetRun n dur metaAt evs clock s) (hw : AnsweredWithin l1 l2 evs) {f : MetaField} {now : Int} {i : Nat}
    {out : Option (List (Str × WireMeta))} (hout : UserMetaAt oauth available tok f evs now i out) :
    ∃ act resp m, (now, act) ∈ evs ∧ ClusterAnswers act i resp ∧ out = some m ∧
      ∀ id, (m.lookup id).map f.get = if u.isAdmin = true ∨ id ∈ available tok then resp.lookup id else none := by
  obtain ⟨act, resp, w, hm, ha, hval, hsame, hfit, rfl⟩ := hout
  obtain ⟨parts, -, hmerge, -⟩ := (metaNet_inv hd h hw).cluster now act i _ hm ha
  have hnd : (resp.map Prod.fst).Nodup := by
    have := mergeMeta_keys parts hmerge
    rwa [List.map_map] at this
  obtain ⟨m', h1, h2⟩ := C166_through (available := available) ht hu hnd hval hsame hfit
  refine ⟨act, _, m', hm, ha, h1, fun id => ?_⟩
  rw [h2 id, lookup_field]
  split <;> rfl

/-- At any time, a user who asks for Meta through the auth proxy gets an answer, and each field of
each entry is that of a store of a node in the last two cache periods and the times of the two
fetches before the node answered; all entries are of sources that they may see. If no
other node has held the source, it is that of the node that was asked, in the last cache period and
the time of its fetch. -/
theorem C166_age {oauth : Str → Option UserCtx} {available : Str → List Str} {tok : Str} {u : UserCtx}
    (ht : tok ≠ []) (hu : oauth tok = some u) (n : Nat) (dur l1 l2 : Int) (hd : 0 ≤ dur) (hl1 : 0 ≤ l1)
    (metaAt : Nat → Int → Str → Option Int) (evs : List (Int × MetaNetAct Int)) (clock : Int) (s : MetaNet Int)
    (h : MetaNetRun n dur metaAt evs clock s) (hw : AnsweredWithin l1 l2 evs) (f : MetaField) (now : Int) (i : Nat)
    (out : Option (List (Str × WireMeta))) (hout : UserMetaAt oauth available tok f evs now i out) :
    ∃ m, out = some m ∧ ∀ id x, m.lookup id = some x → (u.isAdmin = true ∨ id ∈ available tok) ∧
      (∃ j, j < n ∧ HeldWithin metaAt j (dur + dur + l1 + l2) now id (f.get x)) ∧
      ((∀ j, j < n → j ≠ i → ∀ τ, τ ≤ now → metaAt j τ id = none) →
        HeldWithin metaAt i (dur + l2) now id (f.get x)) := by
  obtain ⟨act, resp, m, hm, ha, rfl, hl⟩ := userMetaAt_lookup ht hu hd h hw hout
  refine ⟨m, rfl, fun id x hx => ?_⟩
  have hl := hl id
  rw [hx] at hl
  by_cases hmay : u.isAdmin = true ∨ id ∈ available tok
  · rw [if_pos hmay] at hl
    obtain ⟨h1, h2⟩ := C125_age_partial n dur l1 l2 hd hl1 metaAt evs clock s h hw
    exact ⟨hmay, h1 now act i resp id _ hm ha hl.symm, h2 now act i resp id _ hm ha hl.symm⟩
  · rw [if_neg hmay] at hl
    cases hl

/-- And as long as no request to a node has failed, every source that they may see and that a node
has held for that time is listed. -/
theorem C166_listed {oauth : Str → Option UserCtx} {available : Str → List Str} {tok : Str} {u : UserCtx}
    (ht : tok ≠ []) (hu : oauth tok = some u) (n : Nat) (dur l1 l2 : Int) (hd : 0 ≤ dur) (hl1 : 0 ≤ l1)
    (metaAt : Nat → Int → Str → Option Int) (evs : List (Int × MetaNetAct Int)) (clock : Int) (s : MetaNet Int)
    (h : MetaNetRun n dur metaAt evs clock s) (hw : AnsweredWithin l1 l2 evs)
    (hok : ∀ t c j, (t, MetaNetAct.part c j none) ∉ evs) (f : MetaField) (now : Int) (i : Nat)
    (out : Option (List (Str × WireMeta))) (hout : UserMetaAt oauth available tok f evs now i out) (j : Nat) (hj : j < n)
    (id : Str) (hmay : u.isAdmin = true ∨ id ∈ available tok)
    (hheld : ∀ τ, now - (dur + dur + l1 + l2) ≤ τ → τ ≤ now → metaAt j τ id ≠ none) :
    ∃ m x, out = some m ∧ m.lookup id = some x := by
  obtain ⟨act, resp, m, hm, ha, rfl, hl⟩ := userMetaAt_lookup ht hu hd h hw hout
  have hne := C125_listed_partial n dur l1 l2 hd hl1 metaAt evs clock s h hw hok now act i resp id j hm ha hj hheld
  have hl := hl id
  rw [if_pos hmay] at hl
  rcases hx : m.lookup id with _ | x
  · rw [hx] at hl
    exact absurd hl.symm hne
  · exact ⟨m, x, rfl, hx⟩

/-- Two nodes, of which the second holds the source `x` with one envelope at 5; a user who may see it
asks the first, twice, and gets its count. -/
example (dur : Int) (hd : 0 ≤ dur) : ∃ (evs : List (Int × MetaNetAct Int)) (s : MetaNet Int)
    (metaAt : Nat → Int → Str → Option Int) (oauth : Str → Option UserCtx) (available : Str → List Str)
    (out : Option (List (Str × WireMeta))), MetaNetRun 2 dur metaAt evs dur s ∧ AnsweredWithin 0 0 evs ∧
      (∀ t c j, (t, MetaNetAct.part c j none) ∉ evs) ∧ (oauth "t".toList).isSome = true ∧
      UserMetaAt oauth available "t".toList .count evs dur 0 out ∧
      ∃ m x, out = some m ∧ m.lookup "x".toList = some x ∧ x.count = 1 := by
  let ma : Nat → Int → Str → Option Int := fun j _ x => if j = 1 ∧ x = "x".toList then some 1 else none
  let oa : Str → Option UserCtx := fun _ => some ⟨false, "t".toList, 0⟩
  let av : Str → List Str := fun _ => ["x".toList]
  have r0 : ∀ t, StoreReading ma 0 t t [] := fun t =>
    ⟨List.nodup_nil, fun x v hl => (by cases hl),
      fun x hx => absurd (if_neg (fun e => absurd e.1 (by decide))) (hx t (Int.le_refl _) (Int.le_refl _))⟩
  have r1 : ∀ t, StoreReading ma 1 t t [("x".toList, 1)] := by
    refine fun t => ⟨by simp, fun x v hl => ⟨t, Int.le_refl _, Int.le_refl _, ?_⟩, fun x hx => ?_⟩
    · by_cases he : x = "x".toList
      · subst he
        injection hl with hl
        subst hl
        rfl
      · rw [List.lookup_cons, beq_false_of_ne he] at hl
        cases hl
    · by_cases he : x = "x".toList
      · subst he; simp
      · exact absurd (if_neg (fun e => he e.2)) (hx t (Int.le_refl _) (Int.le_refl _))
  have e0 : MetaNetRun 2 dur ma [] 0 {} := .nil
  have e1 := e0.clusterBegan (now := 0) (i := 0) (by decide) (by decide) rfl
  have e2 := e1.partOwn (now := 0) (pre := []) (post := []) (c := ⟨0, 0, []⟩) (resp := []) (Int.le_refl _) rfl rfl
    (by decide) (r0 0)
  have e3 := e2.localBegan (now := 0) (j := 1) (by decide) (by decide) rfl
  have e4 := e3.localDone (now := 0) (j := 1) (since := 0) (resp := some [("x".toList, 1)]) (by decide)
    List.mem_cons_self (fun r hr => by injection hr with hr; subst hr; exact r1 0)
  have e5 := e4.partRemote (now := 0) (pre := []) (post := []) (c := ⟨0, 0, [some []]⟩)
    (resp := [("x".toList, 1)]) (t := 0) (act := .localDone 1 0 (some [("x".toList, 1)])) (Int.le_refl _) rfl (by simp)
    (by simp) (List.mem_append_right _ (List.mem_singleton.2 rfl)) (Int.le_refl _) (Or.inr ⟨0, rfl⟩)
  have e6 := e5.clusterDone (now := 0) (pre := []) (post := [])
    (c := ⟨0, 0, [some [], some [("x".toList, 1)]]⟩) (Int.le_refl _) rfl rfl
  have e7 := e6.clusterHit (now := dur) (i := 0) (resp := [("x".toList, 1)]) (by omega) (by decide)
    (by simp [metaLoad, metaFinish, metaExpired, mergeMeta, mapSet])
  have hw : AnsweredWithin 0 0 _ := (⟨fun now j since r hm => by simp at hm; omega, fun now c r hm => by
    simp at hm
    obtain ⟨rfl, rfl, -⟩ := hm
    simp⟩ : AnsweredWithin 0 0 ([(0, .clusterBegan 0), (0, .part ⟨0, 0, []⟩ 0 (some [])), (0, .localBegan 1),
      (0, .localDone 1 0 (some [("x".toList, 1)])), (0, .part ⟨0, 0, [some []]⟩ 1 (some [("x".toList, 1)])),
      (0, .clusterDone ⟨0, 0, [some [], some [("x".toList, 1)]]⟩ (some [("x".toList, 1)])),
      (dur, .clusterHit 0 [("x".toList, 1)])] : List (Int × MetaNetAct Int)))
  have hu : UserMetaAt oa av "t".toList .count ([(0, .clusterBegan 0), (0, .part ⟨0, 0, []⟩ 0 (some [])), (0, .localBegan 1),
      (0, .localDone 1 0 (some [("x".toList, 1)])), (0, .part ⟨0, 0, [some []]⟩ 1 (some [("x".toList, 1)])),
      (0, .clusterDone ⟨0, 0, [some [], some [("x".toList, 1)]]⟩ (some [("x".toList, 1)])),
      (dur, .clusterHit 0 [("x".toList, 1)])] : List (Int × MetaNetAct Int)) dur 0
      (userMetaAnswer oa av "t".toList (metaRespProto.encode [("x".toList, ⟨1, 0, 5, 5⟩)])) :=
    ⟨⟨.clusterHit 0 [("x".toList, 1)], [("x".toList, ⟨1, 0, 5, 5⟩)], [("x".toList, ⟨1, 0, 5, 5⟩)], by simp, Or.inl rfl,
      (by
        intro p hp f
        rw [List.mem_singleton] at hp
        subst hp
        cases f <;> simp [MetaField.get, FitsInt64]), List.Perm.refl _,
      (by
        have := metaEntry_len ("x".toList, ⟨1, 0, 5, 5⟩) 1 (by decide +kernel) (by unfold grpcMaxMessage; norm_num)
        exact le_trans this (by unfold grpcMaxMessage; norm_num)), rfl⟩⟩
  have hok : ∀ t c j, (t, MetaNetAct.part c j none) ∉ ([(0, .clusterBegan 0), (0, .part ⟨0, 0, []⟩ 0 (some [])), (0, .localBegan 1),
      (0, .localDone 1 0 (some [("x".toList, 1)])), (0, .part ⟨0, 0, [some []]⟩ 1 (some [("x".toList, 1)])),
      (0, .clusterDone ⟨0, 0, [some [], some [("x".toList, 1)]]⟩ (some [("x".toList, 1)])),
      (dur, .clusterHit 0 [("x".toList, 1)])] : List (Int × MetaNetAct Int)) := by simp
  obtain ⟨m, hm, hage⟩ := C166_age (by decide) rfl 2 dur 0 0 hd (by decide) ma _ _ _ e7 hw .count dur 0 _ hu
  obtain ⟨m', x, hm', hx⟩ := C166_listed (by decide) rfl 2 dur 0 0 hd (by decide) ma _ _ _ e7 hw hok .count dur 0 _ hu 1
    (by decide) "x".toList (Or.inr (List.mem_singleton.2 rfl)) (fun τ _ _ => by simp [ma])
  rw [hm] at hm'
  injection hm' with hm'
  subst hm'
  refine ⟨_, _, ma, oa, av, _, e7, hw, hok, rfl, hu, m, x, hm, hx, ?_⟩
  obtain ⟨-, ⟨j, -, τ, -, -, hh⟩, -⟩ := hage _ _ hx
  simp only [ma] at hh
  split at hh
  · injection hh with hh
    exact hh.symm
  · cases hh

end LogCache
