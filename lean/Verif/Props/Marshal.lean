import Verif.Proof.Marshal
import Verif.Proof.Maps

/-! # Properties of query results (C76, C92, C93) -/

namespace LogCache
open Spec
variable {F : Type}

/-! ## A number system that satisfies the laws -/

/-- Reads what `thousandthsText` writes. -/
private def parseThree (s : Str) : Option Nat :=
  match parseDigits (s.takeWhile (· ≠ '.')), s.dropWhile (· ≠ '.') with
  | some i, ['.', a, b, c] => match parseDigits [a, b, c] with
    | some f => some (1000 * i + f)
    | none => none
  | _, _ => none

/-- Reads thousandths with sign. -/
private def parseSigned : Str → Option Int
  | '-' :: r => (parseThree r).map fun n => -(n : Int)
  | s => (parseThree s).map fun n => (n : Int)

/-- The exact decimal arithmetic of thousandths. -/
private def thousandths : FloatLib Int where
  parse := parseSigned
  fmt3 := thousandthsText
  fmtShort := thousandthsText
  ofMillis n := n

private theorem digit_isDigit {d : Nat} (h : d < 10) : isDigit (decDigit d) = true := by
  unfold isDigit; rw [digitVal_digit h]; rfl

private theorem numeral_digits {s : Str} {n : Nat} (h : Numeral s n) : ∀ c ∈ s, isDigit c = true := by
  intro c hc
  obtain ⟨d, hd, rfl⟩ := numeral_head h c hc
  exact digit_isDigit hd

private theorem digit_ne_dot {c : Char} (h : isDigit c = true) : c ≠ '.' := by
  intro e; subst e; exact absurd h (by decide)

private theorem three_split (n : Nat) :
    (three n).takeWhile (· ≠ '.') = dec (n / 1000) ∧ (three n).dropWhile (· ≠ '.') =
      '.' :: [decDigit (n / 100 % 10), decDigit (n / 10 % 10), decDigit (n % 10)] := by
  have hall : ∀ c ∈ dec (n / 1000), decide (c ≠ '.') = true := fun c hc =>
    decide_eq_true (digit_ne_dot (numeral_digits (numeral_dec _) c hc))
  unfold three
  constructor
  · rw [List.takeWhile_append_of_pos hall]; simp
  · rw [List.dropWhile_append_of_pos hall]; simp

private theorem parseThree_three (n : Nat) : parseThree (three n) = some n := by
  unfold parseThree
  rw [(three_split n).1, (three_split n).2, (parseDigits_iff _ _).2 (numeral_dec _)]
  have : Numeral [decDigit (n / 100 % 10), decDigit (n / 10 % 10), decDigit (n % 10)]
      (10 * (10 * (n / 100 % 10) + n / 10 % 10) + n % 10) :=
    .snoc (.snoc (.one (by omega)) (by omega)) (by omega)
  simp only
  rw [(parseDigits_iff _ _).2 this]
  simp only
  congr 1
  omega

private theorem dec_head (n : Nat) : (∃ c cs, dec n = c :: cs ∧ (c = '0' → cs = [])) := by
  induction n using Nat.strongRecOn with
  | _ n ih =>
    rw [dec]
    split
    · exact ⟨_, [], rfl, fun _ => rfl⟩
    · obtain ⟨c, cs, h1, h2⟩ := ih (n / 10) (by omega)
      refine ⟨c, cs ++ [decDigit (n % 10)], by rw [h1]; rfl, ?_⟩
      intro hc
      have hcs := h2 hc
      rw [hcs, hc] at h1
      have := numeral_dec (n / 10)
      rw [h1] at this
      have h0 : Numeral ['0'] 0 := Numeral.one (d := 0) (by decide)
      have := numeral_unique this h0
      omega

private theorem digit_in {c : Char} (h : isDigit c = true) : '0' ≤ c ∧ c ≤ '9' := by
  unfold isDigit digitVal at h
  split at h
  · assumption
  · cases h

/-- Thousandths are numbers, with any sign. -/
theorem three_valid (sg : Str) (hs : sg = [] ∨ sg = ['-']) (n : Nat) : NumText (sg ++ three n) := by
  obtain ⟨c, cs, h1, h2⟩ := dec_head (n / 1000)
  have hd := numeral_digits (numeral_dec (n / 1000))
  refine ⟨sg, dec (n / 1000), '.' :: [decDigit (n / 100 % 10), decDigit (n / 10 % 10), decDigit (n % 10)], [],
    by unfold three; simp, hs, ?_, .inr ⟨_, ⟨by simp, ?_⟩, rfl⟩, .inl rfl⟩
  · by_cases hc : c = '0'
    · left; rw [h1, h2 hc, hc]
    · right
      refine ⟨⟨by rw [h1]; simp, fun x hx => digit_in (hd x hx)⟩, ?_⟩
      rw [h1]; simpa using hc
  · intro x hx
    simp only [List.mem_cons, List.not_mem_nil, or_false] at hx
    rcases hx with rfl | rfl | rfl <;> exact digit_in (digit_isDigit (by omega))

private theorem three_head (n : Nat) : ∃ c cs, three n = c :: cs ∧ c ≠ '-' := by
  obtain ⟨c, cs, h1, _⟩ := dec_head (n / 1000)
  refine ⟨c, _, by unfold three; rw [h1]; rfl, ?_⟩
  have := numeral_digits (numeral_dec (n / 1000)) c (by rw [h1]; exact List.mem_cons_self ..)
  intro e; subst e; exact absurd this (by decide)

private theorem thousandths_parse (n : Int) : parseSigned (thousandthsText n) = some n := by
  unfold thousandthsText
  split
  · rw [parseSigned, parseThree_three]; show some (-(n.natAbs : Int)) = some n; congr 1; omega
  · obtain ⟨c, cs, h1, h2⟩ := three_head n.natAbs
    have h3 := parseThree_three n.natAbs
    rw [h1] at h3 ⊢
    have : parseSigned (c :: cs) = (parseThree (c :: cs)).map fun n => (n : Int) := by
      unfold parseSigned
      split
      · rename_i heq; injection heq with a _; exact absurd a h2
      · rfl
    rw [this, h3]; show some (n.natAbs : Int) = some n; congr 1; omega

theorem thousandths_valid (n : Int) : NumText (thousandthsText n) := by
  unfold thousandthsText
  split
  · exact three_valid ['-'] (.inr rfl) _
  · exact three_valid [] (.inl rfl) _

private theorem thousandths_laws : FloatLaws thousandths :=
  ⟨thousandths_parse, fun t _ => ⟨t, thousandths_parse t, rfl⟩, thousandths_valid⟩

/-! ## C76 -/

/-- Marshalling succeeds exactly when every time is a finite number. -/
theorem C76_marshal (fl : FloatLib F) (r : PResult F) :
    marshalResult fl (some r) = none ↔ ∃ p ∈ points r, ¬ FiniteTime fl p.time := by
  unfold marshalResult
  rw [Option.map_eq_none_iff]
  cases r with
  | scalar p => simp [assembleData, points, assemblePoint_none]
  | vector ss =>
    have hs : ∀ s : PSample F, assembleSample fl s = none ↔ ¬ FiniteTime fl s.point.time := by
      intro s
      rw [← assemblePoint_none]
      unfold assembleSample
      cases assemblePoint fl s.point <;> simp
    simp only [assembleData, points, Option.map_eq_none_iff, traverse_none, hs, List.mem_map]
    constructor
    · rintro ⟨s, h1, h2⟩; exact ⟨_, ⟨s, h1, rfl⟩, h2⟩
    · rintro ⟨_, ⟨s, h1, rfl⟩, h2⟩; exact ⟨s, h1, h2⟩
  | matrix ss =>
    have hs : ∀ s : PSeries F, assembleSeries fl s = none ↔ ∃ p ∈ s.points, ¬ FiniteTime fl p.time := by
      intro s
      have ht := traverse_none (assemblePoint fl) s.points
      simp only [assemblePoint_none] at ht
      rw [← ht]
      unfold assembleSeries
      rcases traverse (assemblePoint fl) s.points with _ | _ | _ <;> simp
    simp only [assembleData, points, Option.map_eq_none_iff, traverse_none, hs, List.mem_flatMap]
    constructor
    · rintro ⟨s, h1, p, h2, h3⟩; exact ⟨p, ⟨s, h1, h2⟩, h3⟩
    · rintro ⟨p, ⟨s, h1, h2⟩, h3⟩; exact ⟨s, h1, p, h2, h3⟩

private theorem data_rt {fl : FloatLib F} (hl : FloatLaws fl) (r : PResult F)
    (h : ∀ p ∈ points r, FiniteTime fl p.time) :
    ∃ fs, assembleData fl (some r) = some (.obj fs) ∧ disassembleInstant fl fs = some (roundTimes fl r) ∧
      ((∃ ss, r = .matrix ss) → disassembleRange fl fs = some (roundTimes fl r)) := by
  cases r with
  | scalar p =>
    obtain ⟨j, h1, h2⟩ := point_rt hl p (h p (List.mem_singleton.2 rfl))
    refine ⟨[("resultType".toList, .str "scalar".toList), ("result".toList, j)], ?_, ?_, ?_⟩
    · simp only [assembleData, h1, Option.map_some]
    · have f1 : textField [("resultType".toList, .str "scalar".toList), ("result".toList, j)] "resultType" =
          some "scalar".toList := rfl
      have f2 : field [("resultType".toList, .str "scalar".toList), ("result".toList, j)] "result" = some j := rfl
      simp only [disassembleInstant, f1, f2]
      rw [if_pos trivial, Option.bind_some, h2]
      rfl
    · rintro ⟨ss, hss⟩; cases hss
  | vector ss =>
    obtain ⟨js, h1, h2, _⟩ := traverse_map (assembleSample fl) (decodeSample fl)
      (fun s => ⟨s.metric, roundPoint fl s.point⟩) ss
      fun s hs => sample_rt hl s (h _ (List.mem_map.2 ⟨s, hs, rfl⟩))
    refine ⟨[("resultType".toList, .str "vector".toList), ("result".toList, .arr js)], ?_, ?_, ?_⟩
    · simp only [assembleData, h1, Option.map_some]
    · have f1 : textField [("resultType".toList, .str "vector".toList), ("result".toList, .arr js)] "resultType" =
          some "vector".toList := rfl
      have f2 : field [("resultType".toList, .str "vector".toList), ("result".toList, .arr js)] "result" =
          some (.arr js) := rfl
      simp only [disassembleInstant, f1, f2]
      rw [if_neg (by decide), if_pos trivial]
      simp only [decodeList, h2, Option.map_some, roundTimes]
    · rintro ⟨ss, hss⟩; cases hss
  | matrix ss =>
    obtain ⟨js, h1, h2, _⟩ := traverse_map (assembleSeries fl) (decodeSeries fl)
      (fun s => ⟨s.metric, s.points.map (roundPoint fl)⟩) ss
      fun s hs => series_rt hl s fun p hp => h p (List.mem_flatMap.2 ⟨s, hs, hp⟩)
    have f1 : textField [("resultType".toList, .str "matrix".toList), ("result".toList, .arr js)] "resultType" =
        some "matrix".toList := rfl
    have f2 : field [("resultType".toList, .str "matrix".toList), ("result".toList, .arr js)] "result" =
        some (.arr js) := rfl
    refine ⟨[("resultType".toList, .str "matrix".toList), ("result".toList, .arr js)], ?_, ?_, fun _ => ?_⟩
    · simp only [assembleData, h1, Option.map_some]
    · simp only [disassembleInstant, f1, f2]
      rw [if_neg (by decide), if_neg (by decide), if_pos trivial]
      simp only [decodeList, h2, Option.map_some, roundTimes]
    · simp only [disassembleRange, f1, f2]
      rw [if_pos trivial]
      simp only [decodeList, h2, Option.map_some, roundTimes]

/-- Round trip: unmarshalling what was marshalled gives the same result with times in
three decimals. -/
theorem C76_roundtrip {fl : FloatLib F} (hl : FloatLaws fl) (r : PResult F)
    (h : ∀ p ∈ points r, FiniteTime fl p.time) :
    ∃ j, marshalResult fl (some r) = some j ∧ unmarshalInstant fl j = some (roundTimes fl r) ∧
      ((∃ ss, r = .matrix ss) → unmarshalRange fl j = some (roundTimes fl r)) := by
  obtain ⟨fs, h1, h2, h3⟩ := data_rt hl r h
  have hd : dataFields (.obj [("status".toList, .str "success".toList), ("data".toList, .obj fs)]) = some fs := rfl
  refine ⟨_, by unfold marshalResult; rw [h1]; rfl, ?_, fun hm => ?_⟩
  · unfold unmarshalInstant; rw [hd]; exact h2
  · unfold unmarshalRange; rw [hd]; exact h3 hm

private theorem round_id {fl : FloatLib F} (hl : FloatLaws fl) (p : PPoint F) (h : ThreeDecimals fl p.time) :
    FiniteTime fl p.time ∧ roundPoint fl p = p := by
  obtain ⟨t, ht, hv⟩ := h
  rw [ht] at hv
  obtain ⟨t', h1, h2⟩ := hl.three t hv
  refine ⟨⟨t', by rw [ht]; exact h1, by rw [h2]; exact hv⟩, ?_⟩
  unfold roundPoint roundTime
  rw [ht, h1]
  simp only
  rw [h2, ← ht]

/-- Exact round trip for results whose times have three decimals, as all of
log-cache's own results. -/
theorem C76_exact {fl : FloatLib F} (hl : FloatLaws fl) (r : PResult F)
    (h : ∀ p ∈ points r, ThreeDecimals fl p.time) :
    ∃ j, marshalResult fl (some r) = some j ∧ unmarshalInstant fl j = some r ∧
      ((∃ ss, r = .matrix ss) → unmarshalRange fl j = some r) := by
  have hr : roundTimes fl r = r := by
    cases r with
    | scalar p => simp only [roundTimes, (round_id hl p (h p (List.mem_singleton.2 rfl))).2]
    | vector ss =>
      simp only [roundTimes]
      congr 1
      refine (List.map_congr_left fun s hs => ?_).trans (List.map_id ss)
      rw [(round_id hl s.point (h _ (List.mem_map.2 ⟨s, hs, rfl⟩))).2]
      rfl
    | matrix ss =>
      simp only [roundTimes]
      congr 1
      refine (List.map_congr_left fun s hs => ?_).trans (List.map_id ss)
      have : s.points.map (roundPoint fl) = s.points :=
        (List.map_congr_left fun p hp => (round_id hl p (h p (List.mem_flatMap.2 ⟨s, hs, hp⟩))).2).trans
          (List.map_id _)
      rw [this]
      rfl
  have := C76_roundtrip hl r fun p hp => (round_id hl p (h p hp)).1
  rwa [hr] at this

-- The hypotheses hold for a vector with a label.
example : ∃ j, marshalResult thousandths
      (some (.vector [⟨[("a".toList, "b".toList)], ⟨thousandthsText 1500, -20⟩⟩])) = some j ∧
    unmarshalInstant thousandths j = some (.vector [⟨[("a".toList, "b".toList)], ⟨thousandthsText 1500, -20⟩⟩]) := by
  obtain ⟨j, h1, h2, _⟩ := C76_exact thousandths_laws
    (.vector [⟨[("a".toList, "b".toList)], ⟨thousandthsText 1500, -20⟩⟩])
    (by intro p hp; rw [List.mem_singleton.1 hp]; exact ⟨1500, rfl, thousandths_valid 1500⟩)
  exact ⟨j, h1, h2⟩

/-- A result message without a value is marshalled as a success, but cannot be
unmarshalled. -/
theorem C76_nil_false (fl : FloatLib F) : ∃ j, marshalResult fl none = some j ∧
    unmarshalInstant fl j = none ∧ unmarshalRange fl j = none := ⟨_, rfl, rfl, rfl⟩

/-! ## C92 -/

/-- The body the gateway writes for a failed query is never read as a result, for any
error text. -/
theorem C92_error_body (fl : FloatLib F) (msg : Str) :
    unmarshalInstant fl (.obj [("status".toList, .str "error".toList),
      ("errorType".toList, .str "internal".toList), ("error".toList, .str msg)]) = none ∧
    unmarshalRange fl (.obj [("status".toList, .str "error".toList),
      ("errorType".toList, .str "internal".toList), ("error".toList, .str msg)]) = none := ⟨rfl, rfl⟩

/-- Whatever a client reads as a result said so: its `data` has a result type the
client knows, and a range query's is a matrix. -/
theorem C92_only_results (fl : FloatLib F) (j : Json) (r : PResult F) :
    (unmarshalInstant fl j = some r → ∃ fs d, j = .obj fs ∧ field fs "data" = some (.obj d) ∧
      ((field d "resultType" = some (.str "scalar".toList) ∧ ∃ p, r = .scalar p) ∨
       (field d "resultType" = some (.str "vector".toList) ∧ ∃ ss, r = .vector ss) ∨
       (field d "resultType" = some (.str "matrix".toList) ∧ ∃ ss, r = .matrix ss))) ∧
    (unmarshalRange fl j = some r → ∃ fs d, j = .obj fs ∧ field fs "data" = some (.obj d) ∧
      field d "resultType" = some (.str "matrix".toList) ∧ ∃ ss, r = .matrix ss) := by
  have hdata : ∀ d, dataFields j = some d → d ≠ [] → ∃ fs, j = .obj fs ∧ field fs "data" = some (.obj d) := by
    intro d hd hne
    cases j with
    | obj fs =>
      refine ⟨fs, rfl, ?_⟩
      simp only [dataFields] at hd
      split at hd <;> first | (injection hd with hd; subst hd; first | assumption | exact absurd rfl hne) | cases hd
    | _ => simp [dataFields] at hd
  have htext : ∀ d ty, textField d "resultType" = some ty → ty ≠ [] → field d "resultType" = some (.str ty) := by
    intro d ty hd hne
    unfold textField at hd
    split at hd <;> first | (injection hd with hd; subst hd; first | assumption | exact absurd rfl hne) | cases hd
  have hnil : ∀ d ty, textField d "resultType" = some ty → ty ≠ [] → d ≠ [] := by
    intro d ty hd hne he
    subst he
    injection hd with hd
    exact hne hd.symm
  constructor
  · intro h
    unfold unmarshalInstant at h
    obtain ⟨d, hd, h⟩ := Option.bind_eq_some_iff.1 h
    unfold disassembleInstant at h
    cases ht : textField d "resultType" with
    | none => rw [ht] at h; cases h
    | some ty =>
      rw [ht] at h
      simp only at h
      by_cases h1 : ty = "scalar".toList
      · rw [if_pos h1] at h
        obtain ⟨p, _, hp⟩ := Option.map_eq_some_iff.1 h
        have hne : ty ≠ [] := by rw [h1]; decide
        obtain ⟨fs, hj, hf⟩ := hdata d hd (hnil d ty ht hne)
        exact ⟨fs, d, hj, hf, .inl ⟨by rw [htext d ty ht hne, h1], p, hp.symm⟩⟩
      rw [if_neg h1] at h
      by_cases h2 : ty = "vector".toList
      · rw [if_pos h2] at h
        obtain ⟨p, _, hp⟩ := Option.map_eq_some_iff.1 h
        have hne : ty ≠ [] := by rw [h2]; decide
        obtain ⟨fs, hj, hf⟩ := hdata d hd (hnil d ty ht hne)
        exact ⟨fs, d, hj, hf, .inr (.inl ⟨by rw [htext d ty ht hne, h2], p, hp.symm⟩)⟩
      rw [if_neg h2] at h
      by_cases h3 : ty = "matrix".toList
      · rw [if_pos h3] at h
        obtain ⟨p, _, hp⟩ := Option.map_eq_some_iff.1 h
        have hne : ty ≠ [] := by rw [h3]; decide
        obtain ⟨fs, hj, hf⟩ := hdata d hd (hnil d ty ht hne)
        exact ⟨fs, d, hj, hf, .inr (.inr ⟨by rw [htext d ty ht hne, h3], p, hp.symm⟩)⟩
      rw [if_neg h3] at h
      cases h
  · intro h
    unfold unmarshalRange at h
    obtain ⟨d, hd, h⟩ := Option.bind_eq_some_iff.1 h
    unfold disassembleRange at h
    cases ht : textField d "resultType" with
    | none => rw [ht] at h; cases h
    | some ty =>
      rw [ht] at h
      simp only at h
      by_cases h3 : ty = "matrix".toList
      · rw [if_pos h3] at h
        obtain ⟨p, _, hp⟩ := Option.map_eq_some_iff.1 h
        have hne : ty ≠ [] := by rw [h3]; decide
        obtain ⟨fs, hj, hf⟩ := hdata d hd (hnil d ty ht hne)
        exact ⟨fs, d, hj, hf, by rw [htext d ty ht hne, h3], p, hp.symm⟩
      rw [if_neg h3] at h
      cases h

/-! ## C93 -/

/-- Distinct labels become the metric map as they are. -/
theorem labelMap_nodup (ls : List (Str × Str)) (h : (ls.map Prod.fst).Nodup) : labelMap ls = ls := by
  have hset : ∀ (m : List (Str × Str)) (k v : Str), k ∉ m.map Prod.fst → mapSet m k v = m ++ [(k, v)] := by
    intro m
    induction m with
    | nil => intro k v _; rfl
    | cons x m ih =>
      intro k v hk
      obtain ⟨k', v'⟩ := x
      simp only [List.map_cons, List.mem_cons, not_or] at hk
      rw [mapSet, if_neg (fun e => hk.1 e.symm), ih k v hk.2]
      rfl
  have key : ∀ (ls m : List (Str × Str)), ((m ++ ls).map Prod.fst).Nodup →
      ls.foldl (fun m l => mapSet m l.1 l.2) m = m ++ ls := by
    intro ls
    induction ls with
    | nil => intro m _; simp
    | cons l ls ih =>
      intro m hm
      have hnot : l.1 ∉ m.map Prod.fst := by
        intro hc
        rw [List.map_append, List.nodup_append] at hm
        exact hm.2.2 _ hc _ (List.mem_map.2 ⟨l, List.mem_cons_self .., rfl⟩) rfl
      rw [List.foldl_cons, hset m l.1 l.2 hnot, ih]
      · simp
      · simpa using hm
  unfold labelMap
  rw [key ls [] (by simpa using h)]
  rfl

/-- What the query engine computed arrives at the client: each sample and point with
its labels, value and time (milliseconds written as seconds with three decimals), in
order and nothing else. -/
theorem C93_end_to_end {fl : FloatLib F} (hl : FloatLaws fl) :
    (∀ t v, ∃ j, ((toInstant fl (.scalar t v)).bind fun r => marshalResult fl (some r)) = some j ∧
      unmarshalInstant fl j = some (.scalar ⟨fl.fmt3 (fl.ofMillis t), v⟩)) ∧
    (∀ xs : List (EngineSample F), (∀ x ∈ xs, (x.labels.map Prod.fst).Nodup) →
      ∃ j, ((toInstant fl (.vector xs)).bind fun r => marshalResult fl (some r)) = some j ∧
      unmarshalInstant fl j = some (.vector (xs.map fun x => ⟨x.labels, fl.fmt3 (fl.ofMillis x.t), x.v⟩))) ∧
    (∀ xs : List (EngineSeries F), (∀ x ∈ xs, (x.labels.map Prod.fst).Nodup) →
      ∃ j, ((toInstant fl (.matrix xs)).bind fun r => marshalResult fl (some r)) = some j ∧
      ((toRange fl (.matrix xs)).bind fun r => marshalResult fl (some r)) = some j ∧
      unmarshalInstant fl j = some (.matrix (xs.map fun x =>
        ⟨x.labels, x.points.map fun p => ⟨fl.fmt3 (fl.ofMillis p.1), p.2⟩⟩)) ∧
      unmarshalRange fl j = some (.matrix (xs.map fun x =>
        ⟨x.labels, x.points.map fun p => ⟨fl.fmt3 (fl.ofMillis p.1), p.2⟩⟩))) := by
  refine ⟨?_, ?_, ?_⟩
  · intro t v
    obtain ⟨j, h1, h2, _⟩ := C76_exact hl (.scalar ⟨formatTime fl t, v⟩)
      (by intro p hp; rw [List.mem_singleton.1 hp]; exact ⟨_, rfl, hl.millis t⟩)
    exact ⟨j, h1, h2⟩
  · intro xs hn
    obtain ⟨j, h1, h2, _⟩ := C76_exact hl
      (.vector (xs.map fun s => ⟨labelMap s.labels, ⟨formatTime fl s.t, s.v⟩⟩))
      (by
        intro p hp
        simp only [points, List.map_map, List.mem_map] at hp
        obtain ⟨s, _, rfl⟩ := hp
        exact ⟨_, rfl, hl.millis s.t⟩)
    refine ⟨j, h1, h2.trans ?_⟩
    congr 2
    refine List.map_congr_left fun x hx => ?_
    rw [labelMap_nodup _ (hn x hx)]
    rfl
  · intro xs hn
    obtain ⟨j, h1, h2, h3⟩ := C76_exact hl (.matrix (xs.map (toSeries fl)))
      (by
        intro p hp
        simp only [points, List.mem_flatMap, List.mem_map] at hp
        obtain ⟨_, ⟨s, _, rfl⟩, hp⟩ := hp
        simp only [toSeries, List.mem_map] at hp
        obtain ⟨q, _, rfl⟩ := hp
        exact ⟨_, rfl, hl.millis q.1⟩)
    have he : xs.map (toSeries fl) = xs.map fun x =>
        ⟨x.labels, x.points.map fun p => ⟨fl.fmt3 (fl.ofMillis p.1), p.2⟩⟩ := by
      refine List.map_congr_left fun x hx => ?_
      unfold toSeries
      rw [labelMap_nodup _ (hn x hx)]
      rfl
    refine ⟨j, h1, h1, ?_, ?_⟩
    · rw [h2, he]
    · rw [h3 ⟨_, rfl⟩, he]

/-- Times of log-cache's own results are exact to the millisecond in decimal
arithmetic. -/
example : formatTime thousandths 1234567 = "1234.567".toList := by
  have : dec 1234 = "1234".toList := by simp [dec]; decide
  show three 1234567 = _
  unfold three
  rw [show 1234567 / 1000 = 1234 from rfl, this]
  decide

/-- Conversion crashes exactly on string values, and for range queries on everything
that is no matrix. -/
theorem C93_crash_partial (fl : FloatLib F) (v : EngineValue F) :
    (toInstant fl v = none ↔ ∃ t s, v = .string t s) ∧
    (toRange fl v = none ↔ ∀ xs, v ≠ .matrix xs) := by
  cases v <;> simp [toInstant, toRange]

/-- An instant query whose value is a string makes the server panic. -/
theorem C93_crash_false (fl : FloatLib F) (t : Int) (s : Str) : toInstant fl (.string t s) = none := rfl

end LogCache
