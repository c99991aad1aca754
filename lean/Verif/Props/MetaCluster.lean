import Verif.Spec.MetaCluster
import Verif.Props.Cluster

/-! # C125: the age of Meta answers in a cluster -/

namespace LogCache
open Spec

theorem StoreReading.widen {μ : Type} {metaAt : Nat → Int → Str → Option μ} {j : Nat} {t0 t1 t0' t1' : Int}
    {r : List (Str × μ)} (h : StoreReading metaAt j t0 t1 r) (h0 : t0' ≤ t0) (h1 : t1 ≤ t1') :
    StoreReading metaAt j t0' t1' r := by
  obtain ⟨a, b, c⟩ := h
  refine ⟨a, fun x v hl => ?_, fun x hx => c x (fun τ e1 e2 => hx τ (by omega) (by omega))⟩
  obtain ⟨τ, e1, e2, e3⟩ := b x v hl
  exact ⟨τ, by omega, by omega, e3⟩

/-- How much older than the fetch of node `i` the answer of node `j` may be. -/
def partAge (i j : Nat) (age : Int) : Int := if i = j then 0 else age

/-- What is known about the answer of client `j` to a fetch of node `i` from `since` to `t`. -/
def PartOk {μ : Type} (metaAt : Nat → Int → Str → Option μ) (age : Int) (evs : List (Int × MetaNetAct μ))
    (i : Nat) (since t : Int) (j : Nat) (p : Option (List (Str × μ))) : Prop :=
  match p with
  | none => ∃ t' c', (t', MetaNetAct.part c' j none) ∈ evs
  | some r => StoreReading metaAt j (since - partAge i j age) t r

theorem PartOk.later {μ : Type} {metaAt : Nat → Int → Str → Option μ} {age : Int}
    {evs evs' : List (Int × MetaNetAct μ)} {i : Nat} {since t since' t' : Int} {j : Nat}
    {p : Option (List (Str × μ))} (h : PartOk metaAt age evs i since t j p) (ht : t ≤ t') (hs' : since' ≤ since)
    (hs : ∀ e ∈ evs, e ∈ evs') : PartOk metaAt age evs' i since' t' j p := by
  cases p with
  | none =>
    obtain ⟨a, b, h⟩ := h
    exact ⟨a, b, hs _ h⟩
  | some r => exact StoreReading.widen h (by omega) ht

/-- The invariant of the histories. -/
structure MetaNetInv {μ : Type} (n : Nat) (dur l1 l2 : Int) (metaAt : Nat → Int → Str → Option μ)
    (evs : List (Int × MetaNetAct μ)) (clock : Int) (s : MetaNet μ) : Prop where
  loc : ∀ j c, (s.nodes j).localCache = some c → c.duration = dur ∧ c.timestamp ≤ clock ∧
    StoreReading metaAt j (c.timestamp - l1) c.timestamp c.resp
  answers : ∀ t act j r, (t, act) ∈ evs → act.answersLocal j r → t ≤ clock ∧
    StoreReading metaAt j (t - (dur + l1)) t r
  gathering : ∀ c ∈ s.gathering, ∀ j p, c.parts[j]? = some p →
    PartOk metaAt (dur + l1) evs c.node c.since clock j p
  remote : ∀ i c, (s.nodes i).remoteCache = some c → c.duration = dur ∧ c.timestamp ≤ clock ∧
    ∃ parts : List (Option (List (Str × μ))), parts.length = n ∧ mergeMeta parts = some c.resp ∧
      ∀ j p, parts[j]? = some p → PartOk metaAt (dur + l1) evs i (c.timestamp - l2) c.timestamp j p
  cluster : ∀ t act i r, (t, act) ∈ evs → ClusterAnswers act i r →
    ∃ parts : List (Option (List (Str × μ))), parts.length = n ∧ mergeMeta parts = some r ∧
      ∀ j p, parts[j]? = some p → PartOk metaAt (dur + l1) evs i (t - (dur + l2)) t j p

theorem metaNet_inv {μ : Type} {n : Nat} {dur l1 l2 : Int} (hd : 0 ≤ dur)
    {metaAt : Nat → Int → Str → Option μ}
    {evs : List (Int × MetaNetAct μ)} {clock : Int} {s : MetaNet μ} (h : MetaNetRun n dur metaAt evs clock s)
    (hw : AnsweredWithin l1 l2 evs) : MetaNetInv n dur l1 l2 metaAt evs clock s := by
  -- nothing but the history and the clock changes
  have grow : ∀ {evs : List (Int × MetaNetAct μ)} {clock now : Int} {s : MetaNet μ} {act : MetaNetAct μ},
      MetaNetInv n dur l1 l2 metaAt evs clock s → clock ≤ now →
      (∀ j r, act.answersLocal j r → StoreReading metaAt j (now - (dur + l1)) now r) →
      (∀ i r, ClusterAnswers act i r →
        ∃ parts : List (Option (List (Str × μ))), parts.length = n ∧ mergeMeta parts = some r ∧
          ∀ j p, parts[j]? = some p → PartOk metaAt (dur + l1) evs i (now - (dur + l2)) now j p) →
      MetaNetInv n dur l1 l2 metaAt (evs ++ [(now, act)]) now s := by
    intro evs clock now s act ih hc hact hclu
    refine ⟨?_, ?_, ?_, ?_, ?_⟩
    · intro j c hl
      obtain ⟨a, b, d⟩ := ih.loc j c hl
      exact ⟨a, by omega, d⟩
    · intro t act' j r hm ha
      rcases List.mem_append.1 hm with hm | hm
      · obtain ⟨a, b⟩ := ih.answers t act' j r hm ha
        exact ⟨by omega, b⟩
      · cases List.mem_singleton.1 hm
        exact ⟨Int.le_refl _, hact j r ha⟩
    · intro c hcm j p hp
      exact (ih.gathering c hcm j p hp).later hc (Int.le_refl _) (fun e he => List.mem_append_left _ he)
    · intro i c hl
      obtain ⟨a, b, parts, e1, e2, e3⟩ := ih.remote i c hl
      exact ⟨a, by omega, parts, e1, e2, fun j p hp =>
        (e3 j p hp).later (Int.le_refl _) (Int.le_refl _) (fun e he => List.mem_append_left _ he)⟩
    · intro t act' i r hm ha
      have sub : ∀ e ∈ evs, e ∈ evs ++ [(now, act)] := fun e he => List.mem_append_left _ he
      rcases List.mem_append.1 hm with hm | hm
      · obtain ⟨parts, e1, e2, e3⟩ := ih.cluster t act' i r hm ha
        exact ⟨parts, e1, e2, fun j p hp => (e3 j p hp).later (Int.le_refl _) (Int.le_refl _) sub⟩
      · cases List.mem_singleton.1 hm
        obtain ⟨parts, e1, e2, e3⟩ := hclu i r ha
        exact ⟨parts, e1, e2, fun j p hp => (e3 j p hp).later (Int.le_refl _) (Int.le_refl _) sub⟩
  have none' : ∀ {act : MetaNetAct μ} {now : Int}, (∀ j r, act ≠ .localHit j r) →
      (∀ j t r, act ≠ .localDone j t (some r)) →
      ∀ j r, act.answersLocal j r → StoreReading metaAt j (now - (dur + l1)) now r := by
    intro act now h1 h2 j r ha
    rcases ha with ha | ⟨t, ha⟩
    · exact absurd ha (h1 j r)
    · exact absurd ha (h2 j t r)
  have nonec : ∀ {act : MetaNetAct μ} {now : Int} {evs : List (Int × MetaNetAct μ)},
      (∀ i r, act ≠ .clusterHit i r) → (∀ c r, act ≠ .clusterDone c (some r)) →
      ∀ i r, ClusterAnswers act i r →
        ∃ parts : List (Option (List (Str × μ))), parts.length = n ∧ mergeMeta parts = some r ∧
          ∀ j p, parts[j]? = some p → PartOk metaAt (dur + l1) evs i (now - (dur + l2)) now j p := by
    intro act now evs h1 h2 i r ha
    rcases ha with ha | ⟨c, -, ha⟩
    · exact absurd ha (h1 i r)
    · exact absurd ha (h2 c r)
  induction h with
  | nil =>
    refine ⟨?_, ?_, ?_, ?_, ?_⟩
    · intro j c h; cases h
    · intro t act j r h; cases h
    · intro c h; cases h
    · intro i c h; cases h
    · intro t act i r h; cases h
  | @localHit evs clock s now j resp hr hc hj hload ih =>
    have ih := ih ⟨fun _ _ _ _ h => hw.1 _ _ _ _ (List.mem_append_left _ h),
      fun _ _ _ h => hw.2 _ _ _ (List.mem_append_left _ h)⟩
    refine grow ih hc ?_ (nonec (by simp) (by simp))
    intro j' r ha
    rcases ha with ha | ⟨t, ha⟩
    · injection ha with ha1 ha2
      subst ha1; subst ha2
      unfold metaLoad at hload
      simp only [if_true] at hload
      rcases hlc : (s.nodes j).localCache with _ | c
      · rw [hlc] at hload; simp [metaExpired] at hload
      · rw [hlc] at hload
        obtain ⟨a, b, d⟩ := ih.loc j c hlc
        by_cases he : metaExpired (some c) now = true
        · rw [if_pos he] at hload; cases hload
        · rw [if_neg he] at hload
          simp only [Option.map_some, Option.some.injEq] at hload
          subst hload
          simp only [metaExpired, decide_eq_true_eq] at he
          exact d.widen (by omega) (by omega)
    · cases ha
  | @localBegan evs clock s now j hr hc hj hload ih =>
    have ih := ih ⟨fun _ _ _ _ h => hw.1 _ _ _ _ (List.mem_append_left _ h),
      fun _ _ _ h => hw.2 _ _ _ (List.mem_append_left _ h)⟩
    have g := grow ih hc (act := .localBegan j) (none' (by simp) (by simp)) (nonec (by simp) (by simp))
    exact ⟨g.loc, g.answers, g.gathering, g.remote, g.cluster⟩
  | @localDone evs clock s now j since resp hr hc hj hread ih =>
    have ih := ih ⟨fun _ _ _ _ h => hw.1 _ _ _ _ (List.mem_append_left _ h),
      fun _ _ _ h => hw.2 _ _ _ (List.mem_append_left _ h)⟩
    have hlat := hw.1 now j since resp (List.mem_append_right _ (List.mem_singleton.2 rfl))
    have g := grow ih hc (act := .localDone j since resp) (by
      intro j' r ha
      rcases ha with ha | ⟨t, ha⟩
      · cases ha
      · injection ha with ha1 ha2 ha3
        subst ha1
        exact (hread r ha3).widen (by omega) (Int.le_refl _)) (nonec (by simp) (by simp))
    refine ⟨?_, g.answers, g.gathering, ?_, g.cluster⟩
    · intro j' c hl
      simp only [] at hl
      by_cases hjj : j' = j
      · subst hjj
        rw [Function.update_self] at hl
        cases resp with
        | none => exact g.loc j' c hl
        | some r =>
          simp only [metaFinish, if_true] at hl
          injection hl with hl
          subst hl
          exact ⟨rfl, Int.le_refl _, (hread r rfl).widen (by simp only []; omega) (Int.le_refl _)⟩
      · rw [Function.update_of_ne hjj] at hl
        exact g.loc j' c hl
    · intro i c hl
      simp only [] at hl
      by_cases hij : i = j
      · subst hij
        rw [Function.update_self] at hl
        cases resp with
        | none => exact g.remote i c hl
        | some r => exact g.remote i c hl
      · rw [Function.update_of_ne hij] at hl
        exact g.remote i c hl
  | @clusterHit evs clock s now i resp hr hc hj hload ih =>
    have ih := ih ⟨fun _ _ _ _ h => hw.1 _ _ _ _ (List.mem_append_left _ h),
      fun _ _ _ h => hw.2 _ _ _ (List.mem_append_left _ h)⟩
    refine grow ih hc (none' (by simp) (by simp)) ?_
    intro i' r ha
    rcases ha with ha | ⟨c, -, ha⟩
    · injection ha with ha1 ha2
      subst ha1; subst ha2
      unfold metaLoad at hload
      simp only [Bool.false_eq_true, if_false] at hload
      rcases hlc : (s.nodes i).remoteCache with _ | c
      · rw [hlc] at hload; simp [metaExpired] at hload
      · rw [hlc] at hload
        obtain ⟨a, b, parts, e1, e2, e3⟩ := ih.remote i c hlc
        by_cases he : metaExpired (some c) now = true
        · rw [if_pos he] at hload; cases hload
        · rw [if_neg he] at hload
          simp only [Option.map_some, Option.some.injEq] at hload
          subst hload
          simp only [metaExpired, decide_eq_true_eq] at he
          exact ⟨parts, e1, e2, fun j p hp => (e3 j p hp).later (by omega) (by omega) (fun e he => he)⟩
    · cases ha
  | @clusterBegan evs clock s now i hr hc hj hload ih =>
    have ih := ih ⟨fun _ _ _ _ h => hw.1 _ _ _ _ (List.mem_append_left _ h),
      fun _ _ _ h => hw.2 _ _ _ (List.mem_append_left _ h)⟩
    have g := grow ih hc (act := .clusterBegan i) (none' (by simp) (by simp)) (nonec (by simp) (by simp))
    refine ⟨g.loc, g.answers, ?_, g.remote, g.cluster⟩
    intro c hcm
    rcases List.mem_cons.1 hcm with rfl | hcm
    · intro j p hp; simp at hp
    · exact g.gathering c hcm
  | @partOwn evs clock s now pre post c resp hr hc hs hlen hn hread ih =>
    have ih := ih ⟨fun _ _ _ _ h => hw.1 _ _ _ _ (List.mem_append_left _ h),
      fun _ _ _ h => hw.2 _ _ _ (List.mem_append_left _ h)⟩
    have g := grow ih hc (act := .part c c.node (some resp)) (none' (by simp) (by simp)) (nonec (by simp) (by simp))
    refine ⟨g.loc, g.answers, ?_, g.remote, g.cluster⟩
    have old : ∀ c' ∈ pre ++ c :: post, ∀ j p, c'.parts[j]? = some p →
        PartOk metaAt (dur + l1) (evs ++ [(now, .part c c.node (some resp))]) c'.node c'.since now j p := by
      rw [← hs]; exact g.gathering
    intro c' hcm
    rcases List.mem_append.1 hcm with hcm | hcm
    · exact old c' (List.mem_append_left _ hcm)
    · rcases List.mem_cons.1 hcm with rfl | hcm
      · intro j p hp
        simp only [] at hp ⊢
        rw [List.getElem?_append] at hp
        split at hp
        · exact old c (List.mem_append_right _ List.mem_cons_self) j p hp
        · rw [List.getElem?_singleton] at hp
          split at hp
          · injection hp with hp
            subst hp
            have hj : j = c.node := by omega
            subst hj
            refine StoreReading.widen hread ?_ (Int.le_refl _)
            unfold partAge; rw [if_pos rfl]; omega
          · cases hp
      · exact old c' (List.mem_append_right _ (List.mem_cons_of_mem _ hcm))
  | @partRemote evs clock s now pre post c resp t act hr hc hs hlen hn hmem ht hans ih =>
    have ih := ih ⟨fun _ _ _ _ h => hw.1 _ _ _ _ (List.mem_append_left _ h),
      fun _ _ _ h => hw.2 _ _ _ (List.mem_append_left _ h)⟩
    have g := grow ih hc (act := .part c c.parts.length (some resp)) (none' (by simp) (by simp)) (nonec (by simp) (by simp))
    refine ⟨g.loc, g.answers, ?_, g.remote, g.cluster⟩
    have old : ∀ c' ∈ pre ++ c :: post, ∀ j p, c'.parts[j]? = some p →
        PartOk metaAt (dur + l1) (evs ++ [(now, .part c c.parts.length (some resp))]) c'.node c'.since now j p := by
      rw [← hs]; exact g.gathering
    intro c' hcm
    rcases List.mem_append.1 hcm with hcm | hcm
    · exact old c' (List.mem_append_left _ hcm)
    · rcases List.mem_cons.1 hcm with rfl | hcm
      · intro j p hp
        simp only [] at hp ⊢
        rw [List.getElem?_append] at hp
        split at hp
        · exact old c (List.mem_append_right _ List.mem_cons_self) j p hp
        · rw [List.getElem?_singleton] at hp
          split at hp
          · injection hp with hp
            subst hp
            have hj : j = c.parts.length := by omega
            subst hj
            obtain ⟨a, b⟩ := ih.answers t act _ resp hmem hans
            refine StoreReading.widen b ?_ (by omega)
            unfold partAge; rw [if_neg (fun e => hlen e.symm)]; omega
          · cases hp
      · exact old c' (List.mem_append_right _ (List.mem_cons_of_mem _ hcm))
  | @partFailed evs clock s now pre post c hr hc hs hn ih =>
    have ih := ih ⟨fun _ _ _ _ h => hw.1 _ _ _ _ (List.mem_append_left _ h),
      fun _ _ _ h => hw.2 _ _ _ (List.mem_append_left _ h)⟩
    have g := grow ih hc (act := .part c c.parts.length none) (none' (by simp) (by simp)) (nonec (by simp) (by simp))
    refine ⟨g.loc, g.answers, ?_, g.remote, g.cluster⟩
    have old : ∀ c' ∈ pre ++ c :: post, ∀ j p, c'.parts[j]? = some p →
        PartOk metaAt (dur + l1) (evs ++ [(now, .part c c.parts.length none)]) c'.node c'.since now j p := by
      rw [← hs]; exact g.gathering
    intro c' hcm
    rcases List.mem_append.1 hcm with hcm | hcm
    · exact old c' (List.mem_append_left _ hcm)
    · rcases List.mem_cons.1 hcm with rfl | hcm
      · intro j p hp
        simp only [] at hp ⊢
        rw [List.getElem?_append] at hp
        split at hp
        · exact old c (List.mem_append_right _ List.mem_cons_self) j p hp
        · rw [List.getElem?_singleton] at hp
          split at hp
          · injection hp with hp
            subst hp
            have hj : j = c.parts.length := by omega
            subst hj
            exact ⟨now, c, List.mem_append_right _ (List.mem_singleton.2 rfl)⟩
          · cases hp
      · exact old c' (List.mem_append_right _ (List.mem_cons_of_mem _ hcm))
  | @clusterDone evs clock s now pre post c hr hc hs hlen ih =>
    have ih := ih ⟨fun _ _ _ _ h => hw.1 _ _ _ _ (List.mem_append_left _ h),
      fun _ _ _ h => hw.2 _ _ _ (List.mem_append_left _ h)⟩
    have hlat := hw.2 now c _ (List.mem_append_right _ (List.mem_singleton.2 rfl))
    have g := grow ih hc (act := .clusterDone c (mergeMeta c.parts)) (none' (by simp) (by simp)) (by
      intro i r ha
      rcases ha with ha | ⟨c', hn, ha⟩
      · cases ha
      · injection ha with ha1 ha2
        subst ha1; subst hn
        refine ⟨c.parts, hlen, ha2, fun j p hp => ?_⟩
        exact (ih.gathering c (by rw [hs]; exact List.mem_append_right _ List.mem_cons_self) j p hp).later
          hc (by omega) (fun e he => he))
    refine ⟨?_, g.answers, ?_, ?_, g.cluster⟩
    · intro j' k hl
      simp only [] at hl
      by_cases hjj : j' = c.node
      · subst hjj
        rw [Function.update_self] at hl
        cases hm : mergeMeta c.parts with
        | none => rw [hm] at hl; exact g.loc _ k hl
        | some r => rw [hm] at hl; exact g.loc _ k hl
      · rw [Function.update_of_ne hjj] at hl
        exact g.loc j' k hl
    · intro c' hcm
      refine g.gathering c' ?_
      rw [hs]
      rcases List.mem_append.1 hcm with h | h
      · exact List.mem_append_left _ h
      · exact List.mem_append_right _ (List.mem_cons_of_mem _ h)
    · intro i k hl
      simp only [] at hl
      by_cases hij : i = c.node
      · subst hij
        rw [Function.update_self] at hl
        cases hm : mergeMeta c.parts with
        | none => rw [hm] at hl; have := g.remote _ k hl; rw [hm] at this; exact this
        | some r =>
          rw [hm] at hl
          simp only [metaFinish, Bool.false_eq_true, if_false] at hl
          injection hl with hl
          subst hl
          refine ⟨rfl, Int.le_refl _, c.parts, hlen, hm, fun j p hp => ?_⟩
          have := g.gathering c (by rw [hs]; exact List.mem_append_right _ List.mem_cons_self) j p hp
          rw [hm] at this
          exact this.later (Int.le_refl _) (by simp only []; omega) (fun e he => he)
      · rw [Function.update_of_ne hij] at hl
        exact g.remote i k hl

/-- Part of "answers are at most one cache period old": an entry of a cluster wide answer was
held by one of the nodes in the last two cache periods and the times the two fetches took; if
that node is the one that was asked, in the last cache period and the time its fetch took.
Missing: one period for the other nodes, see `C125_two_periods_false`. -/
theorem C125_age_partial {μ : Type} (n : Nat) (dur l1 l2 : Int) (hd : 0 ≤ dur) (hl1 : 0 ≤ l1)
    (metaAt : Nat → Int → Str → Option μ) (evs : List (Int × MetaNetAct μ)) (clock : Int) (s : MetaNet μ)
    (h : MetaNetRun n dur metaAt evs clock s) (hw : AnsweredWithin l1 l2 evs) :
    MetaAtMostOld n metaAt (dur + dur + l1 + l2) evs ∧
    ∀ now act i resp x v, (now, act) ∈ evs → ClusterAnswers act i resp → resp.lookup x = some v →
      (∀ j, j < n → j ≠ i → ∀ τ, τ ≤ now → metaAt j τ x = none) → HeldWithin metaAt i (dur + l2) now x v := by
  have key : ∀ now act i resp x v, (now, act) ∈ evs → ClusterAnswers act i resp → resp.lookup x = some v →
      ∃ j, j < n ∧ ∃ τ, now - (dur + l2) - partAge i j (dur + l1) ≤ τ ∧ τ ≤ now ∧ metaAt j τ x = some v := by
    intro now act i resp x v hm ha hl
    obtain ⟨parts, e1, e2, e3⟩ := (metaNet_inv hd h hw).cluster now act i resp hm ha
    have hnd : ∀ m, some m ∈ parts → (m.map Prod.fst).Nodup := by
      intro m hmm
      obtain ⟨j, hj⟩ := List.mem_iff_getElem?.1 hmm
      exact (e3 j _ hj).1
    rw [(C37_meta_merge parts hnd).2 resp e2 x] at hl
    have hmem := List.mem_of_mem_head? hl
    obtain ⟨a, ha1, ha2⟩ := List.mem_filterMap.1 hmem
    cases a with
    | none => cases ha2
    | some m =>
      obtain ⟨j, hj⟩ := List.mem_iff_getElem?.1 (List.mem_reverse.1 ha1)
      have hjn : j < n := by
        rw [← e1]
        by_contra hge
        rw [List.getElem?_eq_none (by omega)] at hj
        cases hj
      obtain ⟨τ, g1, g2, g3⟩ := (e3 j _ hj).2.1 x v ha2
      exact ⟨j, hjn, τ, g1, g2, g3⟩
  refine ⟨?_, ?_⟩
  · intro now act i resp x v hm ha hl
    obtain ⟨j, hj, τ, g1, g2, g3⟩ := key now act i resp x v hm ha hl
    refine ⟨j, hj, τ, ?_, g2, g3⟩
    unfold partAge at g1
    split at g1 <;> omega
  · intro now act i resp x v hm ha hl hother
    obtain ⟨j, hj, τ, g1, g2, g3⟩ := key now act i resp x v hm ha hl
    by_cases hji : j = i
    · subst hji
      refine ⟨τ, ?_, g2, g3⟩
      unfold partAge at g1
      rw [if_pos rfl] at g1
      omega
    · rw [hother j hj hji τ g2] at g3
      cases g3

/-- Part of "every source is listed": as long as no request to a node has failed, every source
that a node has held for two cache periods and the times of the fetches is listed. Missing:
failed requests, see `C125_hidden_false`. -/
theorem C125_listed_partial {μ : Type} (n : Nat) (dur l1 l2 : Int) (hd : 0 ≤ dur) (hl1 : 0 ≤ l1)
    (metaAt : Nat → Int → Str → Option μ) (evs : List (Int × MetaNetAct μ)) (clock : Int) (s : MetaNet μ)
    (h : MetaNetRun n dur metaAt evs clock s) (hw : AnsweredWithin l1 l2 evs)
    (hok : ∀ t c j, (t, MetaNetAct.part c j none) ∉ evs) :
    MetaListsAll n metaAt (dur + dur + l1 + l2) evs := by
  intro now act i resp x j hm ha hj hheld
  obtain ⟨parts, e1, e2, e3⟩ := (metaNet_inv hd h hw).cluster now act i resp hm ha
  have hnd : ∀ m, some m ∈ parts → (m.map Prod.fst).Nodup := by
    intro m hmm
    obtain ⟨j, hj⟩ := List.mem_iff_getElem?.1 hmm
    exact (e3 j _ hj).1
  rw [(C37_meta_merge parts hnd).2 resp e2 x]
  obtain ⟨p, hp⟩ : ∃ p, parts[j]? = some p := ⟨parts[j], List.getElem?_eq_getElem (by omega)⟩
  have hpo := e3 j p hp
  cases p with
  | none =>
    obtain ⟨t, c, hf⟩ := hpo
    exact absurd hf (hok t c j)
  | some r =>
    have hr := hpo.2.2 x (fun τ g1 g2 => hheld τ (by unfold partAge at g1; split at g1 <;> omega) g2)
    cases hx : r.lookup x with
    | none => exact absurd hx hr
    | some v =>
      intro hnone
      rw [List.head?_eq_none_iff] at hnone
      have : v ∈ (parts.reverse.filterMap fun a => a.bind fun m => m.lookup x) :=
        List.mem_filterMap.2 ⟨some r, List.mem_reverse.2 (List.mem_of_getElem? hp), hx⟩
      rw [hnone] at this
      cases this

/-- The answer of a node about its own store is at most one cache period and the time of the
fetch old. -/
theorem C125_own_store {μ : Type} (n : Nat) (dur l1 l2 : Int) (hd : 0 ≤ dur)
    (metaAt : Nat → Int → Str → Option μ) (evs : List (Int × MetaNetAct μ)) (clock : Int) (s : MetaNet μ)
    (h : MetaNetRun n dur metaAt evs clock s) (hw : AnsweredWithin l1 l2 evs) (now : Int) (act : MetaNetAct μ)
    (j : Nat) (resp : List (Str × μ)) (hm : (now, act) ∈ evs) (ha : act.answersLocal j resp) :
    (∀ x v, resp.lookup x = some v → HeldWithin metaAt j (dur + l1) now x v) ∧
    ∀ x, (∀ τ, now - (dur + l1) ≤ τ → τ ≤ now → metaAt j τ x ≠ none) → resp.lookup x ≠ none := by
  obtain ⟨-, -, a, b⟩ := (metaNet_inv hd h hw).answers now act j resp hm ha
  exact ⟨a, b⟩

/-! ### Concrete histories -/

/-- Node 1 holds the source `x` with the value 1 until 0, and nothing else is held. -/
def exMeta (j : Nat) (τ : Int) (x : Str) : Option Nat :=
  if j = 1 ∧ τ ≤ 0 ∧ x = "x".toList then some 1 else none

theorem exMeta_empty (t0 t1 : Int) (j : Nat) (h : j ≠ 1) (ht : t0 ≤ t1) : StoreReading exMeta j t0 t1 [] := by
  refine ⟨List.nodup_nil, fun x v hl => (by cases hl), fun x hx => ?_⟩
  exact absurd (if_neg (fun e => h e.1)) (hx t0 (Int.le_refl _) ht)

theorem exMeta_one : StoreReading exMeta 1 0 0 [("x".toList, 1)] := by
  refine ⟨by simp, fun x v hl => ⟨0, Int.le_refl _, Int.le_refl _, ?_⟩, fun x hx => ?_⟩
  · by_cases he : x = "x".toList
    · subst he
      injection hl with hl
      subst hl
      rfl
    · rw [List.lookup_cons, beq_false_of_ne he] at hl
      cases hl
  · by_cases he : x = "x".toList
    · subst he; simp
    · exact absurd (if_neg (fun e => he e.2.2)) (hx 0 (Int.le_refl _) (Int.le_refl _))

/-- The events of `C125_two_periods_false`. -/
def twoPeriods (dur : Int) : List (Int × MetaNetAct Nat) :=
  [(0, .localBegan 1), (0, .localDone 1 0 (some [("x".toList, 1)])), (dur, .clusterBegan 0),
   (dur, .part ⟨0, dur, []⟩ 0 (some [])), (dur, .localHit 1 [("x".toList, 1)]),
   (dur, .part ⟨0, dur, [some []]⟩ 1 (some [("x".toList, 1)])),
   (dur, .clusterDone ⟨0, dur, [some [], some [("x".toList, 1)]]⟩ (some [("x".toList, 1)])),
   (dur + dur, .clusterHit 0 [("x".toList, 1)])]

theorem twoPeriods_run (dur : Int) (hd : 0 ≤ dur) :
    ∃ s, MetaNetRun 2 dur exMeta (twoPeriods dur) (dur + dur) s := by
  have e0 : MetaNetRun 2 dur exMeta [] 0 {} := .nil
  have e1 := e0.localBegan (now := 0) (j := 1) (by decide) (by decide) rfl
  have e2 := e1.localDone (now := 0) (j := 1) (since := 0) (resp := some [("x".toList, 1)]) (by decide)
    List.mem_cons_self (fun r hr => by injection hr with hr; subst hr; exact exMeta_one)
  have e3 := e2.clusterBegan (now := dur) (i := 0) hd (by decide) rfl
  have e4 := e3.partOwn (now := dur) (pre := []) (post := []) (c := ⟨0, dur, []⟩) (resp := []) (Int.le_refl _) rfl rfl
    (by simp) (exMeta_empty dur dur 0 (by decide) (Int.le_refl _))
  have e5 := e4.localHit (now := dur) (j := 1) (resp := [("x".toList, 1)]) (Int.le_refl _) (by decide)
    (by simp [metaLoad, metaFinish, metaExpired])
  have e6 := e5.partRemote (now := dur) (pre := []) (post := []) (c := ⟨0, dur, [some []]⟩)
    (resp := [("x".toList, 1)]) (t := dur) (act := .localHit 1 [("x".toList, 1)]) (Int.le_refl _) rfl (by simp)
    (by simp) (List.mem_append_right _ (List.mem_singleton.2 rfl)) (Int.le_refl _) (Or.inl rfl)
  have e7 := e6.clusterDone (now := dur) (pre := []) (post := [])
    (c := ⟨0, dur, [some [], some [("x".toList, 1)]]⟩) (Int.le_refl _) rfl rfl
  have e8 := e7.clusterHit (now := dur + dur) (i := 0) (resp := [("x".toList, 1)]) (by omega) (by decide)
    (by simp [metaLoad, metaFinish, metaExpired, mergeMeta, mapSet])
  exact ⟨_, e8⟩

theorem twoPeriods_within (dur : Int) : AnsweredWithin 0 0 (twoPeriods dur) := by
  refine ⟨fun now j since r hm => ?_, fun now c r hm => ?_⟩
  · simp [twoPeriods] at hm
    omega
  · simp [twoPeriods] at hm
    obtain ⟨rfl, rfl, -⟩ := hm
    simp

/-- Even if all fetches take no time: an answer may be two cache periods old, because the
answers of the other nodes are cached on both sides. -/
theorem C125_two_periods_false : ∀ dur : Int, 0 < dur → ∃ (metaAt : Nat → Int → Str → Option Nat) (evs : _)
    (clock : Int) (s : MetaNet Nat), MetaNetRun 2 dur metaAt evs clock s ∧ AnsweredWithin 0 0 evs ∧
      ¬ MetaAtMostOld 2 metaAt dur evs ∧ ¬ MetaAtMostOld 2 metaAt (dur + dur - 1) evs := by
  intro dur hd
  obtain ⟨s, hs⟩ := twoPeriods_run dur (by omega)
  have key : ∀ age, age < dur + dur → ¬ MetaAtMostOld 2 exMeta age (twoPeriods dur) := by
    intro age hage h
    obtain ⟨j, -, τ, h1, -, h3⟩ := h (dur + dur) (.clusterHit 0 [("x".toList, 1)]) 0 [("x".toList, 1)] "x".toList 1
      (by simp [twoPeriods]) (Or.inl rfl) rfl
    unfold exMeta at h3
    rw [if_neg (by rintro ⟨-, h, -⟩; omega)] at h3
    cases h3
  exact ⟨exMeta, twoPeriods dur, _, s, hs, twoPeriods_within dur, key _ (by omega), key _ (by omega)⟩

/-- One failed request to a node hides all of its sources for a cache period, from all clients
of the node that asked, although the node holds them all the time and is up again. -/
theorem C125_hidden_false : ∀ dur : Int, 0 < dur → ∃ (metaAt : Nat → Int → Str → Option Nat) (evs : _)
    (clock : Int) (s : MetaNet Nat), MetaNetRun 2 dur metaAt evs clock s ∧ AnsweredWithin 0 0 evs ∧
      (∀ τ, metaAt 1 τ "x".toList = some 1) ∧ ∀ age, ¬ MetaListsAll 2 metaAt age evs := by
  intro dur hd
  let m : Nat → Int → Str → Option Nat := fun j _ x => if j = 1 ∧ x = "x".toList then some 1 else none
  have e0 : MetaNetRun 2 dur m [] 0 {} := .nil
  have e1 := e0.clusterBegan (now := 0) (i := 0) (by decide) (by decide) rfl
  have e2 := e1.partOwn (now := 0) (pre := []) (post := []) (c := ⟨0, 0, []⟩) (resp := []) (Int.le_refl _) rfl rfl
    (by decide) ⟨List.nodup_nil, fun x v hl => (by cases hl),
      fun x hx => absurd (if_neg (fun e => absurd e.1 (by decide))) (hx 0 (Int.le_refl _) (Int.le_refl _))⟩
  have e3 := e2.partFailed (now := 0) (pre := []) (post := []) (c := ⟨0, 0, [some []]⟩) (Int.le_refl _) rfl (by decide)
  have e4 := e3.clusterDone (now := 0) (pre := []) (post := []) (c := ⟨0, 0, [some [], none]⟩) (Int.le_refl _) rfl rfl
  have e5 := e4.clusterHit (now := dur) (i := 0) (resp := []) (by omega) (by decide)
    (by simp [metaLoad, metaFinish, metaExpired, mergeMeta])
  refine ⟨m, _, _, _, e5, ⟨fun now j since r hm => ?_, fun now c r hm => ?_⟩, fun τ => if_pos ⟨rfl, rfl⟩,
    fun age h => ?_⟩
  · simp at hm
  · simp at hm
    obtain ⟨rfl, rfl, -⟩ := hm
    simp
  · exact h dur (.clusterHit 0 []) 0 [] "x".toList 1 (List.mem_append_right _ (List.mem_singleton.2 rfl)) (Or.inl rfl)
      (by decide) (fun τ _ _ => by simp [m]) rfl

/-- The hypotheses of the theorems above on the history of `C125_two_periods_false`. -/
example : MetaAtMostOld 2 exMeta 20 (twoPeriods 10) ∧ MetaListsAll 2 exMeta 20 (twoPeriods 10) := by
  obtain ⟨s, hs⟩ := twoPeriods_run 10 (by decide)
  exact ⟨(C125_age_partial 2 10 0 0 (by decide) (by decide) exMeta _ _ s hs (twoPeriods_within 10)).1,
    C125_listed_partial 2 10 0 0 (by decide) (by decide) exMeta _ _ s hs (twoPeriods_within 10)
      (fun t c j => by simp [twoPeriods])⟩

end LogCache
