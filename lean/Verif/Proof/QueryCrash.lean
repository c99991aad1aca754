import Verif.Props.Engine

/-! # The values of a query are those of points that were read -/

namespace LogCache
open Spec

theorem iterAt_mem {it : SeriesIter} {p : Point} (h : it.at = some p) : p ∈ it.points := by
  unfold SeriesIter.at at h
  split at h
  · cases h
  · exact List.mem_of_getElem? h

/-- An iterator over `ps` that has buffered only points of `ps` from before `T`; if it is at its
end, what it passed last is from before `T`. -/
structure BufOf (ps : List Point) (T : Int) (b : BufIter) : Prop where
  points : b.it.points = ps
  ring : ∀ p ∈ b.ring, p ∈ ps ∧ p.t < T
  ended : b.ok = false → ∀ l, b.last = some l → l < T

/-- It knows the time of the point it is at. -/
def KnowsTime (b : BufIter) : Prop := b.ok = true → ∃ p, b.it.at = some p ∧ b.last = some p.t

theorem ringAdd_mem {delta : Int} {ring : List Point} {p q : Point} (h : q ∈ ringAdd delta ring p) : q ∈ ring ∨ q = p := by
  unfold ringAdd at h
  have := (List.dropWhile_sublist _).subset h
  simpa using this

theorem BufOf.later {ps : List Point} {T T' : Int} {b : BufIter} (h : BufOf ps T b) (hle : T ≤ T') : BufOf ps T' b :=
  ⟨h.points, fun p hp => ⟨(h.ring p hp).1, by have := (h.ring p hp).2; omega⟩,
    fun ho l hl => by have := h.ended ho l hl; omega⟩

theorem next_bufOf {ps : List Point} {delta T : Int} {b b' : BufIter} {ok : Bool} (hb : BufOf ps T b) (hk : KnowsTime b)
    (hlt : ∀ l, b.last = some l → l < T) (h : b.next delta = some (b', ok)) :
    BufOf ps T b' ∧ KnowsTime b' ∧ b'.ok = ok := by
  unfold BufIter.next at h
  split at h
  · next hok =>
    obtain ⟨p0, hp0, hl0⟩ := hk hok
    have hring : ∀ q ∈ ringAdd delta b.ring p0, q ∈ ps ∧ q.t < T := by
      intro q hq
      rcases ringAdd_mem hq with h | rfl
      · exact hb.ring q h
      · exact ⟨by rw [← hb.points]; exact iterAt_mem hp0, hlt _ hl0⟩
    rw [hp0] at h
    simp only at h
    split at h
    · split at h
      · cases h
      · next q hq =>
        cases h
        exact ⟨⟨hb.points, hring, fun h => by cases h⟩, fun _ => ⟨q, hq, rfl⟩, rfl⟩
    · cases h
      exact ⟨⟨hb.points, hring, fun _ => hlt⟩, fun h => (by cases h), rfl⟩
  · next hok =>
    cases h
    exact ⟨hb, hk, by simpa using hok⟩

/-- The iterator has reached the time `T`, or its end. -/
def ReachedTime (T : Int) (b : BufIter) (ok : Bool) : Prop :=
  ok = true → ∃ p, b.it.at = some p ∧ b.last = some p.t ∧ T ≤ p.t

theorem any_reached {b : BufIter} {T : Int} (hk : KnowsTime b) (hok : b.ok = true)
    (h : b.last.any (fun l => decide (T ≤ l)) = true) : ∃ p, b.it.at = some p ∧ b.last = some p.t ∧ T ≤ p.t := by
  obtain ⟨p, h1, h2⟩ := hk hok
  rw [h2] at h
  exact ⟨p, h1, h2, by simpa using h⟩

theorem any_before {b : BufIter} {T : Int} (h : ¬ b.last.any (fun l => decide (T ≤ l)) = true) :
    ∀ l, b.last = some l → l < T := by
  intro l hl
  rw [hl] at h
  simpa using h

theorem advance_bufOf {ps : List Point} {delta t : Int} {fuel : Nat} {b b' : BufIter} {ok : Bool} (hb : BufOf ps t b)
    (hk : KnowsTime b) (hlt : ∀ l, b.last = some l → l < t) (h : b.advance delta t fuel = some (b', ok)) :
    BufOf ps t b' ∧ KnowsTime b' ∧ ReachedTime t b' ok := by
  induction fuel generalizing b with
  | zero => cases h
  | succ fuel ih =>
    rw [BufIter.advance] at h
    split at h
    · cases h
    · next b1 ok1 hn =>
      obtain ⟨h1, h2, h3⟩ := next_bufOf hb hk hlt hn
      split at h
      · next hok =>
        split at h
        · next hany =>
          cases h
          exact ⟨h1, h2, fun _ => any_reached h2 (h3.trans hok) hany⟩
        · next hany => exact ih h1 h2 (any_before hany) h
      · cases h
        exact ⟨h1, h2, fun h => by cases h⟩

theorem reach_bufOf {ps : List Point} {delta t : Int} {b b' : BufIter} {ok : Bool} (hb : BufOf ps t b) (hk : KnowsTime b)
    (h : b.reach delta t = some (b', ok)) : BufOf ps t b' ∧ KnowsTime b' ∧ ReachedTime t b' ok := by
  unfold BufIter.reach at h
  split at h
  · next hany =>
    cases h
    refine ⟨hb, hk, fun _ => ?_⟩
    cases hok : b.ok with
    | true => exact any_reached hk hok hany
    | false =>
      obtain ⟨l, hl, hle⟩ := Option.any_eq_true _ _ |>.1 hany
      have := hb.ended hok l hl
      rw [decide_eq_true_eq] at hle
      omega
  · next hany => exact advance_bufOf hb hk (any_before hany) h

theorem seek_bufOf {ps : List Point} {delta t : Int} {b b' : BufIter} {ok : Bool} (hd : 0 ≤ delta) (hb : BufOf ps t b)
    (hk : b.last = none ∨ KnowsTime b) (h : b.seek delta t = some (b', ok)) :
    BufOf ps t b' ∧ KnowsTime b' ∧ ReachedTime t b' ok := by
  unfold BufIter.seek at h
  split at h
  · next hall =>
    simp only at h
    split at h
    · split at h
      · cases h
      · next p hp =>
        refine reach_bufOf ?_ ?_ h
        · exact ⟨hb.points, fun p hp => (nomatch hp), fun h => (nomatch h)⟩
        · exact fun _ => ⟨p, hp, rfl⟩
    · cases h
      refine ⟨⟨hb.points, fun p hp => (nomatch hp), fun _ l hl => ?_⟩, fun h => (nomatch h), fun h => (nomatch h)⟩
      simp only at hl
      rw [hl] at hall
      have : l < t - delta := by simpa using hall
      omega
  · next hall =>
    rcases hk with hk | hk
    · rw [hk] at hall
      simp at hall
    · exact reach_bufOf hb hk h

theorem selectorPoint_mem {ps : List Point} {t : Int} {b b' : BufIter} {o : Option Point} (hb : BufOf ps t b)
    (hk : b.last = none ∨ KnowsTime b) (h : selectorPoint b t = some (b', o)) :
    BufOf ps t b' ∧ KnowsTime b' ∧ ∀ p, o = some p → p ∈ ps ∧ t - 300000 ≤ p.t ∧ p.t ≤ t := by
  have hlb : lookback = 300000 := rfl
  unfold selectorPoint at h
  split at h
  · cases h
  · next b1 ok hs =>
    obtain ⟨h1, h2, h3⟩ := seek_bufOf (by omega) hb hk hs
    have hback : ∀ p, (match b1.ring.getLast? with
        | some p => if p.t < t - lookback then none else some p
        | none => none) = some p → p ∈ ps ∧ t - 300000 ≤ p.t ∧ p.t ≤ t := by
      intro p hp
      split at hp
      · next q hq =>
        split at hp
        · cases hp
        · cases hp
          obtain ⟨a, c⟩ := h1.ring _ (List.mem_of_getLast? hq)
          exact ⟨a, by omega, by omega⟩
      · cases hp
    simp only at h
    split at h
    · next hok =>
      split at h
      · cases h
      · next p hp =>
        split at h
        · cases h
          exact ⟨h1, h2, hback⟩
        · cases h
          refine ⟨h1, h2, fun q hq => ?_⟩
          cases hq
          obtain ⟨q, hq, -, hle⟩ := h3 hok
          rw [hp] at hq
          cases hq
          refine ⟨?_, by omega, by omega⟩
          rw [← h1.points]
          exact iterAt_mem hp
    · cases h
      exact ⟨h1, h2, hback⟩

/-- A value shown at the step `y.1` is that of a point of the five minutes before. -/
def ShownFrom (ps : List Point) (y : Int × PVal) : Prop := ∃ p ∈ ps, p.v = y.2 ∧ y.1 - 300000 ≤ p.t ∧ p.t ≤ y.1

theorem evalSteps_mem {ps : List Point} {ts : List Int} (hts : ts.Pairwise (· < ·)) {b : BufIter}
    {out : List (Int × PVal)} (hb : ∀ t ∈ ts, BufOf ps t b) (hk : b.last = none ∨ KnowsTime b)
    (h : evalSteps ts b = some out) : ∀ y ∈ out, y.1 ∈ ts ∧ ShownFrom ps y := by
  induction ts generalizing b out with
  | nil => cases h; intro y hy; cases hy
  | cons t ts ih =>
    rw [evalSteps] at h
    split at h
    · cases h
    · next b1 o hs =>
      obtain ⟨h1, h2, h3⟩ := selectorPoint_mem (hb t (List.mem_cons_self ..)) hk hs
      obtain ⟨rest, hr, rfl⟩ := Option.map_eq_some_iff.1 h
      obtain ⟨hlt, hts⟩ := List.pairwise_cons.1 hts
      intro y hy
      rcases List.mem_append.1 hy with hy | hy
      · cases o with
        | none => cases hy
        | some p =>
          have : y = (t, p.v) := by simpa using hy
          subst this
          obtain ⟨a, c⟩ := h3 p rfl
          exact ⟨List.mem_cons_self .., p, a, rfl, c⟩
      · obtain ⟨a, c⟩ := ih hts (fun t' ht' => h1.later (le_of_lt (hlt t' ht'))) (.inr h2) hr y hy
        exact ⟨List.mem_cons_of_mem _ a, c⟩

theorem evalSelector_mem {ts : List Int} (hts : ts.Pairwise (· < ·)) {series : List SeriesData}
    {m : List (List (Str × Str) × List (Int × PVal))}
    (h : evalSelector ts series = some m) : ∀ x ∈ m, x.2 ≠ [] ∧ ∃ s ∈ series, x.1 = seriesLabels s ∧
      ∀ y ∈ x.2, y.1 ∈ ts ∧ ShownFrom s.points y := by
  induction series generalizing m with
  | nil => cases h; intro x hx; cases hx
  | cons s ss ih =>
    rw [evalSelector] at h
    split at h
    · cases h
    · next ps hps =>
      obtain ⟨rest, hr, rfl⟩ := Option.map_eq_some_iff.1 h
      have hrest : ∀ x ∈ rest, x.2 ≠ [] ∧ ∃ s' ∈ s :: ss, x.1 = seriesLabels s' ∧
          ∀ y ∈ x.2, y.1 ∈ ts ∧ ShownFrom s'.points y := by
        intro x hx
        obtain ⟨a, s', b, c⟩ := ih hr x hx
        exact ⟨a, s', List.mem_cons_of_mem _ b, c⟩
      intro x hx
      split at hx
      · exact hrest x hx
      · next hne =>
        rcases List.mem_cons.1 hx with rfl | hx
        · exact ⟨hne, s, List.mem_cons_self .., rfl, evalSteps_mem hts (ps := s.points)
            (fun t _ => ⟨rfl, fun p hp => (by cases hp), fun h => (by cases h)⟩) (.inl rfl) hps⟩
        · exact hrest x hx

theorem selectorMatrix_mem {ts : List Int} (hts : ts.Pairwise (· < ·)) {ans : Option (List SeriesData)}
    {m : List (List (Str × Str) × List (Int × PVal))} (h : selectorMatrix ts ans = some m) :
    ∃ out, ans = some out ∧ ∀ x ∈ m, x.2 ≠ [] ∧ ∃ s ∈ out, x.1 = seriesLabels s ∧
      ∀ y ∈ x.2, y.1 ∈ ts ∧ ShownFrom s.points y := by
  unfold selectorMatrix at h
  split at h
  · cases h
  · next series =>
    rw [expandSet_all] at h
    exact ⟨series, rfl, evalSelector_mem hts h⟩

/-- The series of a plain selector, whatever is read. -/
theorem select_only {log : Str → List Envelope} (ht : ∀ id, ∀ e ∈ log id, (e.tags.map Prod.fst).Nodup)
    (hown : ∀ id, ∀ e ∈ log id, e.sourceId = id) (hc : ClearLabels log)
    {read : ReadRequest → Option (List Envelope)} {ms : List Matcher} (hp : PlainSelector ms) {order : List Str}
    (ho : order.Perm (selectArgs ms).ids) {start stop : Int}
    (hr : ∀ id es, NamesSource ms id → read (metricsAsked start stop id) = some es →
      ∀ e ∈ es, e ∈ log id ∧ inWindow (start - 1000000000) stop e = true)
    {out : List SeriesData} (h : select 1000000000 start stop read order ms = some out) :
    ∀ s ∈ out, (s.tags.map Prod.fst).Nodup ∧ ∀ p ∈ s.points, ∃ e ∈ log e.sourceId,
      inWindow (start - 1000000000) stop e = true ∧ Shows ms e p.v ∧ CarriesLabels s.tags e ∧ p.t * 1000000 = secondOf e := by
  classical
  obtain ⟨-, hbuild⟩ := C55_select_reads_all 1000000000 start stop read order ms out h
  generalize htps : (order.flatMap fun id => ((read (metricsAsked start stop id)).getD []).filterMap
      (selectPoint (selectArgs ms) 1000000000)) = tps at hbuild
  have hfrom : ∀ tp ∈ tps, ∃ e ∈ log e.sourceId, inWindow (start - 1000000000) stop e = true ∧ tp.1 = pointTags e ∧
      Shows ms e tp.2.v ∧ tp.2.t * 1000000 = secondOf e := by
    intro tp htp
    rw [← htps] at htp
    obtain ⟨id, hid, hin⟩ := List.mem_flatMap.1 htp
    obtain ⟨e, he, hsel⟩ := List.mem_filterMap.1 hin
    have hn : NamesSource ms id := (mem_selectIds ms id).1 (ho.mem_iff.1 hid)
    cases hre : read (metricsAsked start stop id) with
    | none => rw [hre] at he; cases he
    | some es =>
      rw [hre] at he
      obtain ⟨h1, h2⟩ := hr id es hn hre e he
      have := hown id e h1
      subst this
      exact ⟨e, h1, h2, (selectPoint_shows hp e hn).2 tp.1 tp.2 hsel⟩
  have hun : Unambiguous (tps.map Prod.fst) := by
    haveI : Nonempty Envelope := ⟨⟨0, [], [], [], [], none⟩⟩
    choose! f hf using hfrom
    have hall : tps.map Prod.fst = (tps.map f).map pointTags := by
      rw [List.map_map]
      exact List.map_congr_left fun tp htp => (hf tp htp).2.2.1
    rw [hall]
    refine unambiguous_of_clear ht hc fun e he => ?_
    obtain ⟨tp, htp, rfl⟩ := List.mem_map.1 he
    exact ⟨_, (hf tp htp).1⟩
  have hnd : ∀ tp ∈ tps, (tp.1.map Prod.fst).Nodup := by
    intro tp htp
    obtain ⟨e, h1, -, h2, -⟩ := hfrom tp htp
    rw [h2]
    exact pointTags_keys (ht _ e h1)
  obtain ⟨c1, -, -⟩ := C54_series_partial tps hun hnd
  intro s hs
  rw [hbuild] at hs
  refine ⟨?_, fun p hpt => ?_⟩
  · obtain ⟨tp, rest, hf, hst⟩ := (builder_series tps s).1 hs
    have : tp ∈ tps.filter (fun x => decide (seriesId x.1 = seriesId s.tags)) := by rw [hf]; simp
    have h2 := hnd tp (List.mem_filter.1 this).1
    rw [hst]
    exact h2
  · rw [(c1 s hs).1] at hpt
    obtain ⟨tp, htp, rfl⟩ := List.mem_map.1 hpt
    rw [List.mem_filter, decide_eq_true_eq] at htp
    obtain ⟨e, h1, h2, h3, h4, h5⟩ := hfrom tp htp.1
    refine ⟨e, h1, h2, h4, fun k v => ?_, h5⟩
    rw [← htp.2 k, h3]
    exact pointTags_label e k v

end LogCache
