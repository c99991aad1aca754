import Verif.Proof.Get
import Verif.Spec.Trip
/-!
# The traversal of a read as a scan of the list of envelopes
-/
namespace LogCache
open Spec

/-- Folding over a list until the step says stop. -/
def scanL {σ : Type} (g : σ → Envelope → σ × Bool) : List Envelope → σ → σ × Bool
  | [], s => (s, false)
  | e :: l, s =>
    match g s e with
    | (s', true) => (s', true)
    | (s', false) => scanL g l s'

theorem scanL_append {σ : Type} (g : σ → Envelope → σ × Bool) (l m : List Envelope) (s : σ) :
    scanL g (l ++ m) s =
      match scanL g l s with
      | (s', true) => (s', true)
      | (s', false) => scanL g m s' := by
  induction l generalizing s with
  | nil => rfl
  | cons e l ih =>
    simp only [List.cons_append, scanL]
    rcases g s e with ⟨s', d⟩
    cases d
    · exact ih s'
    · rfl

/-- A step of the ascending walk. -/
def winAsc {σ : Type} (start stop : Int) (f : σ → Envelope → σ × Bool) (s : σ) (e : Envelope) :
    σ × Bool :=
  if e.timestamp < start then (s, false) else if e.timestamp ≥ stop then (s, true) else f s e

/-- A step of the descending walk. -/
def winDesc {σ : Type} (start stop : Int) (f : σ → Envelope → σ × Bool) (s : σ) (e : Envelope) :
    σ × Bool :=
  if e.timestamp ≥ stop then (s, false) else if e.timestamp < start then (s, true) else f s e

theorem scanL_skip {σ : Type} (g : σ → Envelope → σ × Bool) (l : List Envelope) (s : σ)
    (h : ∀ e ∈ l, g s e = (s, false)) : scanL g l s = (s, false) := by
  induction l with
  | nil => rfl
  | cons e l ih =>
    simp only [scanL]
    rw [h e (by simp)]
    exact ih fun x hx => h x (by simp [hx])

theorem asc_scan {σ : Type} (start stop : Int) (f : σ → Envelope → σ × Bool) (t : Tree Envelope)
    (hu : Unfudged t.toList)
    (hm : t.envs.Pairwise fun x y => x.timestamp ≤ y.timestamp) (s : σ) :
    ascTraverse start stop f t s = scanL (winAsc start stop f) t.envs s := by
  induction t generalizing s with
  | nil => rfl
  | node l k v b r ihl ihr =>
    obtain ⟨hul, hk, hur⟩ := unfudged_node.1 hu
    rw [envs_node] at hm ⊢
    obtain ⟨hml, hmr, hlr⟩ := List.pairwise_append.1 hm
    have hmr' := (List.pairwise_cons.1 hmr).2
    rw [scanL_append]
    simp only [ascTraverse]
    by_cases hge : v.timestamp ≥ start
    · rw [if_pos hge, ihl hul hml]
      rcases scanL (winAsc start stop f) l.envs s with ⟨s', d⟩
      cases d
      · simp only [scanL]
        rw [isFudgeMember_false hk hur]
        have hw : winAsc start stop f s' v =
            (if v.timestamp ≥ stop then (s', true) else f s' v) := by
          unfold winAsc; rw [if_neg (by omega)]
        rw [hw]
        generalize (if v.timestamp ≥ stop then (s', true) else f s' v) = C
        rcases C with ⟨s2, d2⟩
        cases d2
        · simpa using ihr hur hmr' s2
        · simp
      · rfl
    · rw [if_neg hge]
      rw [scanL_skip _ l.envs s]
      · simp only [scanL]
        have hw : winAsc start stop f s v = (s, false) := by
          unfold winAsc; rw [if_pos (by omega)]
        rw [hw]
        exact ihr hur hmr' s
      · intro e he
        have := hlr e he v (by simp)
        unfold winAsc; rw [if_pos (by omega)]

theorem desc_scan {σ : Type} (start stop : Int) (f : σ → Envelope → σ × Bool) (t : Tree Envelope)
    (hu : Unfudged t.toList)
    (hm : t.envs.Pairwise fun x y => x.timestamp ≤ y.timestamp) (s : σ) :
    descTraverse start stop f t s = scanL (winDesc start stop f) t.envs.reverse s := by
  induction t generalizing s with
  | nil => rfl
  | node l k v b r ihl ihr =>
    obtain ⟨hul, hk, hur⟩ := unfudged_node.1 hu
    rw [envs_node] at hm ⊢
    obtain ⟨hml, hmr, hlr⟩ := List.pairwise_append.1 hm
    have hmr' := (List.pairwise_cons.1 hmr).2
    have hvr := (List.pairwise_cons.1 hmr).1
    rw [List.reverse_append, List.reverse_cons, List.append_assoc, scanL_append]
    simp only [descTraverse]
    by_cases hlt : v.timestamp < stop
    · rw [if_pos hlt, ihr hur hmr']
      rcases scanL (winDesc start stop f) r.envs.reverse s with ⟨s', d⟩
      cases d
      · simp only [List.cons_append, List.nil_append, scanL]
        rw [isFudgeMember_false hk hul]
        have hw : winDesc start stop f s' v =
            (if v.timestamp < start then (s', true) else f s' v) := by
          unfold winDesc; rw [if_neg (by omega)]
        rw [hw]
        generalize (if v.timestamp < start then (s', true) else f s' v) = C
        rcases C with ⟨s2, d2⟩
        cases d2
        · simpa using ihl hul hml s2
        · simp
      · rfl
    · rw [if_neg hlt]
      rw [scanL_skip _ r.envs.reverse s]
      · simp only [List.cons_append, List.nil_append, scanL]
        have hw : winDesc start stop f s v = (s, false) := by
          unfold winDesc; rw [if_pos (by omega)]
        rw [hw]
        exact ihl hul hml s
      · intro e he
        have := hvr e (by simpa using he)
        unfold winDesc; rw [if_pos (by omega)]

theorem winAsc_scan {σ : Type} (start stop : Int) (f : σ → Envelope → σ × Bool)
    (l : List Envelope) (hm : l.Pairwise fun x y => x.timestamp ≤ y.timestamp) (s : σ) :
    (scanL (winAsc start stop f) l s).1 = (scanL f (l.filter (inWindow start stop)) s).1 := by
  induction l generalizing s with
  | nil => rfl
  | cons e l ih =>
    obtain ⟨he, hm⟩ := List.pairwise_cons.1 hm
    simp only [scanL]
    by_cases h1 : e.timestamp < start
    · have hw : winAsc start stop f s e = (s, false) := by unfold winAsc; rw [if_pos h1]
      rw [hw, List.filter_cons_of_neg (by simp [inWindow]; omega)]
      exact ih hm s
    · by_cases h2 : e.timestamp ≥ stop
      · have hw : winAsc start stop f s e = (s, true) := by
          unfold winAsc; rw [if_neg h1, if_pos h2]
        have hn : (e :: l).filter (inWindow start stop) = [] := by
          rw [List.filter_eq_nil_iff]
          intro x hx
          rcases List.mem_cons.1 hx with rfl | hx
          · simp [inWindow]; omega
          · have := he x hx; simp [inWindow]; omega
        rw [hw, hn]; rfl
      · have hw : winAsc start stop f s e = f s e := by
          unfold winAsc; rw [if_neg h1, if_neg h2]
        rw [hw, List.filter_cons_of_pos (by simp [inWindow]; omega)]
        simp only [scanL]
        rcases f s e with ⟨s', d⟩
        cases d
        · exact ih hm s'
        · rfl

theorem winDesc_scan {σ : Type} (start stop : Int) (f : σ → Envelope → σ × Bool)
    (l : List Envelope) (hm : l.Pairwise fun x y => y.timestamp ≤ x.timestamp) (s : σ) :
    (scanL (winDesc start stop f) l s).1 = (scanL f (l.filter (inWindow start stop)) s).1 := by
  induction l generalizing s with
  | nil => rfl
  | cons e l ih =>
    obtain ⟨he, hm⟩ := List.pairwise_cons.1 hm
    simp only [scanL]
    by_cases h1 : e.timestamp ≥ stop
    · have hw : winDesc start stop f s e = (s, false) := by unfold winDesc; rw [if_pos h1]
      rw [hw, List.filter_cons_of_neg (by simp [inWindow]; omega)]
      exact ih hm s
    · by_cases h2 : e.timestamp < start
      · have hw : winDesc start stop f s e = (s, true) := by
          unfold winDesc; rw [if_neg h1, if_pos h2]
        have hn : (e :: l).filter (inWindow start stop) = [] := by
          rw [List.filter_eq_nil_iff]
          intro x hx
          rcases List.mem_cons.1 hx with rfl | hx
          · simp [inWindow]; omega
          · have := he x hx; simp [inWindow]; omega
        rw [hw, hn]; rfl
      · have hw : winDesc start stop f s e = f s e := by
          unfold winDesc; rw [if_neg h1, if_neg h2]
        rw [hw, List.filter_cons_of_pos (by simp [inWindow]; omega)]
        simp only [scanL]
        rcases f s e with ⟨s', d⟩
        cases d
        · exact ih hm s'
        · rfl

theorem checkEnvelopeType_none {e : Envelope} {t : EType} :
    checkEnvelopeType e t = none ↔ ∃ n, t = .other n := by
  cases t <;> simp [checkEnvelopeType]

theorem typeOk_cons (t : EType) (ts : List EType) (e : Envelope) :
    typeOk (some (t :: ts)) e =
      ((decide (t = .any) || decide (kind e = some t)) || typeOk (some ts) e) := by
  rw [Bool.eq_iff_iff]
  simp only [typeOk, Bool.or_eq_true, decide_eq_true_eq, List.mem_cons, exists_eq_or_imp]
  constructor
  · rintro ((h | h) | (h | h))
    · exact .inl (.inl h.symm)
    · exact .inr (.inl h)
    · exact .inl (.inr h)
    · exact .inr (.inr h)
  · rintro ((h | h) | (h | h))
    · exact .inl (.inl h.symm)
    · exact .inr (.inl h)
    · exact .inl (.inr h)
    · exact .inr (.inr h)

theorem anyType_none (e : Envelope) (ts : List EType) : anyType e ts = none ↔ Trips ts e := by
  induction ts with
  | nil => simp [anyType, Trips]
  | cons t ts ih =>
    simp only [anyType]
    cases hc : checkEnvelopeType e t with
    | none =>
      obtain ⟨n, rfl⟩ := checkEnvelopeType_none.1 hc
      exact ⟨fun _ => ⟨[], n, ts, rfl, by simp [typeOk]⟩, fun _ => rfl⟩
    | some c =>
      have hc' := checkEnvelopeType_eq e t c hc
      have hne : ∀ n, t ≠ .other n := fun n hn => by
        rw [checkEnvelopeType_none.2 ⟨n, hn⟩] at hc; cases hc
      cases c with
      | true =>
        simp only [reduceCtorEq, false_iff]
        rintro ⟨before, n, after, h1, h2⟩
        cases before with
        | nil => exact hne n (List.cons.inj h1).1
        | cons u us =>
          obtain ⟨rfl, -⟩ := List.cons.inj h1
          rw [typeOk_cons, ← hc'] at h2
          simp at h2
      | false =>
        simp only
        rw [ih]
        constructor
        · rintro ⟨before, n, after, h1, h2⟩
          exact ⟨t :: before, n, after, by rw [h1]; rfl, by rw [typeOk_cons, ← hc', h2]; rfl⟩
        · rintro ⟨before, n, after, h1, h2⟩
          cases before with
          | nil => exact absurd (List.cons.inj h1).1 (hne n)
          | cons u us =>
            obtain ⟨rfl, h1'⟩ := List.cons.inj h1
            rw [typeOk_cons] at h2
            exact ⟨us, n, after, h1', (Bool.or_eq_false_iff.1 h2).2⟩

theorem validEnvelopeType_none (e : Envelope) (types : Option (List EType)) :
    validEnvelopeType e types = none ↔ ∃ ts, types = some ts ∧ Trips ts e := by
  cases types with
  | none => simp [validEnvelopeType]
  | some ts => simp [validEnvelopeType, anyType_none]

theorem scan_panics (a : GetArgs) (l : List Envelope) (res : List Envelope)
    (hlim : (res.length : Int) < a.limit) :
    (scanL (getCallback a) l (some res)).1 = none ↔
      ∃ ts before e after, a.types = some ts ∧
        l.filterMap (project a.nameFilter) = before ++ e :: after ∧ Trips ts e ∧
        ((res.length + (before.filter (typeOk a.types)).length : Nat) : Int) < a.limit := by
  induction l generalizing res with
  | nil => simp [scanL]
  | cons x l ih =>
    simp only [scanL, getCallback, filterByName_eq]
    cases hp : project a.nameFilter x with
    | none =>
      simp only [List.filterMap_cons_none hp]
      exact ih res hlim
    | some x' =>
      simp only [List.filterMap_cons_some hp]
      cases hv : validEnvelopeType x' a.types with
      | none =>
        obtain ⟨ts, hts, htr⟩ := (validEnvelopeType_none _ _).1 hv
        simp only [true_iff]
        exact ⟨ts, [], x', _, hts, rfl, htr, by simpa using hlim⟩
      | some b =>
        have hb := validEnvelopeType_eq _ _ _ hv
        have hnt : ∀ ts, a.types = some ts → ¬ Trips ts x' := fun ts h1 h2 => by
          rw [(validEnvelopeType_none _ _).2 ⟨ts, h1, h2⟩] at hv; cases hv
        have key : ∀ n : Nat, (∃ ts before e after, a.types = some ts ∧
              x' :: l.filterMap (project a.nameFilter) = before ++ e :: after ∧ Trips ts e ∧
              ((n + (before.filter (typeOk a.types)).length : Nat) : Int) < a.limit) ↔
            (∃ ts before e after, a.types = some ts ∧
              l.filterMap (project a.nameFilter) = before ++ e :: after ∧ Trips ts e ∧
              ((n + (if b then 1 else 0) + (before.filter (typeOk a.types)).length : Nat) : Int)
                < a.limit) := by
          intro n
          constructor
          · rintro ⟨ts, before, e, after, h1, h2, h3, h4⟩
            cases before with
            | nil => exact absurd ((List.cons.inj h2).1 ▸ h3) (hnt ts h1)
            | cons y ys =>
              obtain ⟨rfl, h2'⟩ := List.cons.inj h2
              refine ⟨ts, ys, e, after, h1, h2', h3, ?_⟩
              cases b
              · rw [List.filter_cons_of_neg (by simp [← hb])] at h4
                simpa using h4
              · rw [List.filter_cons_of_pos hb.symm] at h4
                simp only [List.length_cons] at h4
                simp only [if_true]; omega
          · rintro ⟨ts, before, e, after, h1, h2, h3, h4⟩
            refine ⟨ts, x' :: before, e, after, h1, by rw [h2]; rfl, h3, ?_⟩
            cases b
            · rw [List.filter_cons_of_neg (by simp [← hb])]
              simpa using h4
            · rw [List.filter_cons_of_pos hb.symm]
              simp only [List.length_cons]
              simp only [if_true] at h4; omega
        rw [key]
        cases b with
        | true =>
          simp only
          by_cases hs : ((res ++ [x']).length : Int) ≥ a.limit
          · rw [decide_eq_true hs]
            simp only [reduceCtorEq, false_iff]
            rintro ⟨ts, before, e, after, -, -, -, h4⟩
            simp only [List.length_append, List.length_singleton] at hs
            simp only [if_true] at h4
            omega
          · rw [decide_eq_false hs]
            simp only
            rw [ih (res ++ [x']) (by omega)]
            simp
        | false =>
          simp only
          rw [decide_eq_false (show ¬ (res.length : Int) ≥ a.limit by omega)]
          simp only
          rw [ih res hlim]
          simp

theorem getTree_panics (t : Tree Envelope) (a : GetArgs) (hb : t.BST) (hu : Unfudged t.toList)
    (hl : 1 ≤ a.limit) :
    getTree t a = none ↔
      ∃ ts before e after, a.types = some ts ∧
        ((walkOrder a t).filter (inWindow a.start a.stop)).filterMap (project a.nameFilter)
          = before ++ e :: after ∧ Trips ts e ∧
        ((before.filter (typeOk a.types)).length : Int) < a.limit := by
  have hm : t.envs.Pairwise fun x y => x.timestamp ≤ y.timestamp := tsMono_of_unfudged hb hu
  have := scan_panics a ((walkOrder a t).filter (inWindow a.start a.stop)) [] (by simp; omega)
  simp only [List.length_nil, Nat.zero_add] at this
  rw [← this]
  unfold getTree walkOrder
  split
  · rw [desc_scan _ _ _ _ hu hm, winDesc_scan _ _ _ _ (List.pairwise_reverse.2 hm)]
  · rw [asc_scan _ _ _ _ hu hm, winAsc_scan _ _ _ _ hm]

/-! ## Whatever the timestamps -/

theorem getCallback_none (a : GetArgs) (e : Envelope) : getCallback a none e = (none, true) := rfl

/-- What makes the callback crash. -/
theorem getCallback_crash {a : GetArgs} {res : List Envelope} {e : Envelope}
    (h : (getCallback a (some res) e).1 = none) :
    ∃ ts x, a.types = some ts ∧ project a.nameFilter e = some x ∧ Trips ts x := by
  simp only [getCallback, filterByName_eq] at h
  cases hp : project a.nameFilter e with
  | none => rw [hp] at h; cases h
  | some x =>
    rw [hp] at h
    simp only at h
    cases hv : validEnvelopeType x a.types with
    | none =>
      obtain ⟨ts, h1, h2⟩ := (validEnvelopeType_none _ _).1 hv
      exact ⟨ts, x, h1, rfl, h2⟩
    | some b => rw [hv] at h; cases b <;> cases h

theorem asc_crash (a : GetArgs) (t : Tree Envelope) (res : List Envelope)
    (h : (ascTraverse a.start a.stop (getCallback a) t (some res)).1 = none) :
    ∃ ts e x, a.types = some ts ∧ e ∈ t.envs ∧ inWindow a.start a.stop e = true ∧ project a.nameFilter e = some x ∧
      Trips ts x := by
  induction t generalizing res with
  | nil => cases h
  | node l k v b r ihl ihr =>
    rw [envs_node]
    simp only [ascTraverse] at h
    have hr : ∀ res, (ascTraverse a.start a.stop (getCallback a) r (some res)).1 = none →
        ∃ ts e x, a.types = some ts ∧ e ∈ l.envs ++ v :: r.envs ∧ inWindow a.start a.stop e = true ∧
          project a.nameFilter e = some x ∧ Trips ts x := by
      intro res h
      obtain ⟨ts, e, x, h1, h2, h3⟩ := ihr res h
      exact ⟨ts, e, x, h1, List.mem_append_right _ (List.mem_cons_of_mem _ h2), h3⟩
    split at h
    · rename_i hge
      rcases hl : ascTraverse a.start a.stop (getCallback a) l (some res) with ⟨s', d⟩
      rw [hl] at h
      cases s' with
      | none =>
        obtain ⟨ts, e, x, h1, h2, h3⟩ := ihl res (by rw [hl])
        exact ⟨ts, e, x, h1, List.mem_append_left _ h2, h3⟩
      | some res' =>
        cases d with
        | true => cases h
        | false =>
          simp only at h
          by_cases hst : v.timestamp ≥ a.stop
          · rw [if_pos hst] at h
            split at h
            · cases h
            · exact hr _ h
          · rw [if_neg hst] at h
            rcases hc : getCallback a (some res') v with ⟨s2, d2⟩
            rw [hc] at h
            cases s2 with
            | none =>
              obtain ⟨ts, x, h1, h2, h3⟩ := getCallback_crash (a := a) (res := res') (e := v) (by rw [hc])
              exact ⟨ts, v, x, h1, by simp, by simp [inWindow]; omega, h2, h3⟩
            | some res2 =>
              simp only at h
              split at h
              · cases h
              · exact hr _ h
    · exact hr _ h

theorem desc_crash (a : GetArgs) (t : Tree Envelope) (res : List Envelope)
    (h : (descTraverse a.start a.stop (getCallback a) t (some res)).1 = none) :
    ∃ ts e x, a.types = some ts ∧ e ∈ t.envs ∧ inWindow a.start a.stop e = true ∧ project a.nameFilter e = some x ∧
      Trips ts x := by
  induction t generalizing res with
  | nil => cases h
  | node l k v b r ihl ihr =>
    rw [envs_node]
    simp only [descTraverse] at h
    have hr : ∀ res, (descTraverse a.start a.stop (getCallback a) l (some res)).1 = none →
        ∃ ts e x, a.types = some ts ∧ e ∈ l.envs ++ v :: r.envs ∧ inWindow a.start a.stop e = true ∧
          project a.nameFilter e = some x ∧ Trips ts x := by
      intro res h
      obtain ⟨ts, e, x, h1, h2, h3⟩ := ihl res h
      exact ⟨ts, e, x, h1, List.mem_append_left _ h2, h3⟩
    split at h
    · rename_i hlt
      rcases hl : descTraverse a.start a.stop (getCallback a) r (some res) with ⟨s', d⟩
      rw [hl] at h
      cases s' with
      | none =>
        obtain ⟨ts, e, x, h1, h2, h3⟩ := ihr res (by rw [hl])
        exact ⟨ts, e, x, h1, List.mem_append_right _ (List.mem_cons_of_mem _ h2), h3⟩
      | some res' =>
        cases d with
        | true => cases h
        | false =>
          simp only at h
          by_cases hst : v.timestamp < a.start
          · rw [if_pos hst] at h
            split at h
            · cases h
            · exact hr _ h
          · rw [if_neg hst] at h
            rcases hc : getCallback a (some res') v with ⟨s2, d2⟩
            rw [hc] at h
            cases s2 with
            | none =>
              obtain ⟨ts, x, h1, h2, h3⟩ := getCallback_crash (a := a) (res := res') (e := v) (by rw [hc])
              exact ⟨ts, v, x, h1, by simp, by simp [inWindow]; omega, h2, h3⟩
            | some res2 =>
              simp only at h
              split at h
              · cases h
              · exact hr _ h
    · exact hr _ h

/-- In a tree in which the timestamps are in order, the walk goes at least as far as the scan. -/
theorem asc_far (a : GetArgs) (t : Tree Envelope) (hm : TsMono t.envs) (s : Option (List Envelope)) :
    ((scanL (winAsc a.start a.stop (getCallback a)) t.envs s).2 = false →
      ascTraverse a.start a.stop (getCallback a) t s = scanL (winAsc a.start a.stop (getCallback a)) t.envs s) ∧
    ((scanL (winAsc a.start a.stop (getCallback a)) t.envs s).1 = none →
      (ascTraverse a.start a.stop (getCallback a) t s).1 = none) := by
  induction t generalizing s with
  | nil => exact ⟨fun _ => rfl, fun h => h⟩
  | node l k v b r ihl ihr =>
    rw [envs_node] at hm ⊢
    obtain ⟨hml, hmr, hlv, hvr, hlr⟩ := tsMono_node.1 hm
    rw [scanL_append]
    simp only [ascTraverse]
    by_cases hge : v.timestamp ≥ a.start
    · rw [if_pos hge]
      obtain ⟨i1, i2⟩ := ihl hml s
      rcases hs : scanL (winAsc a.start a.stop (getCallback a)) l.envs s with ⟨s', d⟩
      rw [hs] at i1 i2
      cases d with
      | true =>
        refine ⟨(fun h => by cases h), fun h => ?_⟩
        simp only at h i2
        have i2 := i2 h
        rcases ha : ascTraverse a.start a.stop (getCallback a) l s with ⟨s2, d2⟩
        rw [ha] at i2
        simp only at i2
        subst i2
        cases d2 with
        | true => rfl
        | false =>
          simp only [getCallback_none, ite_self]
          split
          · rfl
          · exact asc_none a r
      | false =>
        rw [i1 rfl]
        have hw : winAsc a.start a.stop (getCallback a) s' v =
            (if v.timestamp ≥ a.stop then (s', true) else getCallback a s' v) := by
          unfold winAsc; rw [if_neg (by omega)]
        simp only [scanL]
        rw [hw]
        generalize (if v.timestamp ≥ a.stop then (s', true) else getCallback a s' v) = C
        rcases C with ⟨s2, d2⟩
        cases d2 with
        | false => simpa using ihr hmr s2
        | true =>
          refine ⟨(fun h => by simp at h), fun h => ?_⟩
          simp only at h
          subst h
          split
          · rfl
          · exact asc_none a r
    · rw [if_neg hge, scanL_skip _ l.envs s]
      · simp only [scanL]
        have hw : winAsc a.start a.stop (getCallback a) s v = (s, false) := by
          unfold winAsc; rw [if_pos (by omega)]
        rw [hw]
        exact ihr hmr s
      · intro e he
        have := hlv e he
        unfold winAsc; rw [if_pos (by omega)]

theorem desc_far (a : GetArgs) (t : Tree Envelope) (hm : TsMono t.envs) (s : Option (List Envelope)) :
    ((scanL (winDesc a.start a.stop (getCallback a)) t.envs.reverse s).2 = false →
      descTraverse a.start a.stop (getCallback a) t s = scanL (winDesc a.start a.stop (getCallback a)) t.envs.reverse s) ∧
    ((scanL (winDesc a.start a.stop (getCallback a)) t.envs.reverse s).1 = none →
      (descTraverse a.start a.stop (getCallback a) t s).1 = none) := by
  induction t generalizing s with
  | nil => exact ⟨fun _ => rfl, fun h => h⟩
  | node l k v b r ihl ihr =>
    rw [envs_node] at hm ⊢
    obtain ⟨hml, hmr, hlv, hvr, hlr⟩ := tsMono_node.1 hm
    rw [List.reverse_append, List.reverse_cons, List.append_assoc, scanL_append]
    simp only [descTraverse]
    by_cases hge : v.timestamp < a.stop
    · rw [if_pos hge]
      obtain ⟨i1, i2⟩ := ihr hmr s
      rcases hs : scanL (winDesc a.start a.stop (getCallback a)) r.envs.reverse s with ⟨s', d⟩
      rw [hs] at i1 i2
      cases d with
      | true =>
        refine ⟨(fun h => by cases h), fun h => ?_⟩
        simp only at h i2
        have i2 := i2 h
        rcases ha : descTraverse a.start a.stop (getCallback a) r s with ⟨s2, d2⟩
        rw [ha] at i2
        simp only at i2
        subst i2
        cases d2 with
        | true => rfl
        | false =>
          simp only [getCallback_none, ite_self]
          split
          · rfl
          · exact desc_none a l
      | false =>
        rw [i1 rfl]
        have hw : winDesc a.start a.stop (getCallback a) s' v =
            (if v.timestamp < a.start then (s', true) else getCallback a s' v) := by
          unfold winDesc; rw [if_neg (by omega)]
        simp only [List.cons_append, List.nil_append, scanL]
        rw [hw]
        generalize (if v.timestamp < a.start then (s', true) else getCallback a s' v) = C
        rcases C with ⟨s2, d2⟩
        cases d2 with
        | false => simpa using ihl hml s2
        | true =>
          refine ⟨(fun h => by simp at h), fun h => ?_⟩
          simp only at h
          subst h
          split
          · rfl
          · exact desc_none a l
    · rw [if_neg hge, scanL_skip _ r.envs.reverse s]
      · simp only [List.cons_append, List.nil_append, scanL]
        have hw : winDesc a.start a.stop (getCallback a) s v = (s, false) := by
          unfold winDesc; rw [if_pos (by omega)]
        rw [hw]
        exact ihl hml s
      · intro e he
        have := hvr e (by simpa using he)
        unfold winDesc; rw [if_pos (by omega)]

end LogCache
