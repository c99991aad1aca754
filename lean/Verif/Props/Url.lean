import Verif.Spec.Url
import Verif.Proof.Url
import Verif.Props.Client
import Verif.Props.PromClient

/-!
# Property theorems about requests as bytes (C132)
-/

namespace LogCache
open Spec

/-- Whatever characters the path and the parameters of a request are made of, the proxy and
the gateway see the path and the parameters the client meant. -/
theorem C132_seen (path : Str) (q : Values) (hq : ProperParams q) :
    ∃ q', seenRequest ('/' :: path) q = some ('/' :: path, q') ∧ SameParams q' q ∧
      ProperParams q' :=
  seen_request path q hq.1 hq.2

example : ProperParams [("name_filter".toList, ["a&b=c;d %+é".toList]), ("envelope_types".toList, ["LOG".toList, "GAUGE".toList])] := by
  refine ⟨by decide, by simp⟩

/-- The target is one word of printable ASCII without a fragment, so that the request line is
read as it was written. -/
theorem C132_line (path : List UInt8) (q : RawValues) :
    ∀ b ∈ requestTarget path q, 33 ≤ b.toNat ∧ b.toNat ≤ 126 ∧ b ≠ 35 := by
  intro b hb
  have hplain : ∀ b : UInt8, b = 43 ∨ b = 37 ∨ b = 38 ∨ b = 61 ∨ b = 63 ∨ pathPlain b = true →
      33 ≤ b.toNat ∧ b.toNat ≤ 126 ∧ b ≠ 35 := by
    intro b h
    rcases h with rfl | rfl | rfl | rfl | rfl | h
    · decide
    · decide
    · decide
    · decide
    · decide
    · have := pathPlain_ne h
      exact ⟨by omega, by omega, this.2.2.1⟩
  apply hplain
  unfold requestTarget at hb
  rcases List.mem_append.1 hb with hb | hb
  · rcases pathEscape_mem hb with h | h
    · exact Or.inr (Or.inl h)
    · exact Or.inr (Or.inr (Or.inr (Or.inr (Or.inr h))))
  · split at hb
    · cases hb
    · rcases List.mem_cons.1 hb with rfl | hb
      · exact Or.inr (Or.inr (Or.inr (Or.inr (Or.inl rfl))))
      · by_contra hno
        simp only [not_or] at hno
        obtain ⟨h1, h2, h3, h4, h5, h6⟩ := hno
        refine encodeQuery_no h1 h2 ?_ h3 h4 hb
        rcases h : urlPlain b with _ | _
        · rfl
        · exact absurd (by unfold pathPlain; simp [h]) h6

theorem mapSet_proper {q : Values} {k : Str} {vs : List Str} (hq : ProperParams q) (hv : vs ≠ []) :
    ProperParams (mapSet q k vs) := by
  obtain ⟨hn, he⟩ := hq
  have hkeys : ∀ (q : Values) x, x ∈ (mapSet q k vs).map Prod.fst → x = k ∨ x ∈ q.map Prod.fst := by
    intro q
    induction q with
    | nil => intro x hx; simpa [mapSet] using hx
    | cons e t ih =>
      intro x hx
      obtain ⟨a, w⟩ := e
      rw [mapSet] at hx
      split at hx
      · rcases List.mem_cons.1 hx with h | h
        · exact Or.inl h
        · exact Or.inr (List.mem_cons_of_mem _ h)
      · rcases List.mem_cons.1 hx with h | h
        · exact Or.inr (h ▸ List.mem_cons_self)
        · rcases ih x h with h | h
          · exact Or.inl h
          · exact Or.inr (List.mem_cons_of_mem _ h)
  induction q with
  | nil => exact ⟨by simp [mapSet], by simpa [mapSet] using hv⟩
  | cons e t ih =>
    obtain ⟨a, w⟩ := e
    have ih' := ih (List.nodup_cons.1 hn).2 fun e h => he e (List.mem_cons_of_mem _ h)
    unfold ProperParams
    rw [mapSet]
    split
    · next h =>
      subst h
      refine ⟨hn, fun e h => ?_⟩
      rcases List.mem_cons.1 h with rfl | h
      · exact hv
      · exact he e (List.mem_cons_of_mem _ h)
    · next h =>
      refine ⟨?_, fun e h' => ?_⟩
      · rw [List.map_cons, List.nodup_cons]
        refine ⟨fun hx => ?_, ih'.1⟩
        rcases hkeys t a hx with hx | hx
        · exact h hx
        · exact (List.nodup_cons.1 hn).1 hx
      · rcases List.mem_cons.1 h' with rfl | h'
        · exact he _ List.mem_cons_self
        · exact ih'.2 e h'

theorem readParams_proper (start : Int) (opts : List ReadOpt) : ProperParams (httpReadParams start opts) := by
  unfold httpReadParams
  have h0 : ProperParams (Values.set [] "start_time".toList (formatInt start)) :=
    mapSet_proper ⟨by simp, by simp⟩ (by simp)
  generalize Values.set [] "start_time".toList (formatInt start) = q at h0
  induction opts generalizing q with
  | nil => exact h0
  | cons o t ih =>
    rw [List.foldl_cons]
    apply ih
    cases o with
    | types ts =>
      rw [ReadOpt.apply]
      clear ih
      induction ts generalizing q with
      | nil => exact h0
      | cons x xs ih2 =>
        rw [List.foldl_cons]
        exact ih2 _ (mapSet_proper h0 (by simp))
    | _ => exact mapSet_proper h0 (by simp)

theorem promParams_proper (query : Str) (opts : List PromOpt) :
    ProperParams (opts.foldl PromOpt.apply (Values.set [] "query".toList query)) := by
  have h0 : ProperParams (Values.set [] "query".toList query) := mapSet_proper ⟨by simp, by simp⟩ (by simp)
  generalize Values.set [] "query".toList query = q at h0
  induction opts generalizing q with
  | nil => exact h0
  | cons o t ih =>
    rw [List.foldl_cons]
    apply ih
    cases o <;> exact mapSet_proper h0 (by simp)

theorem gatewayRead_same {a b : Values} (h : SameParams a b) (id : Str) : gatewayRead id a = gatewayRead id b := by
  unfold gatewayRead intParam Values.first
  simp only [h _]

/-- A Read over HTTP, as bytes: whatever the id and the name filter are made of, the gateway is
asked for the path of that source with the request the options mean. -/
theorem C132_read (id : Str) (start : Int) (opts : List ReadOpt) (hs : FitsInt64 start)
    (hr : ∀ o ∈ opts, OptInRange o) (hk : ∀ o ∈ opts, OptKnown o) :
    ∃ q, seenRequest ("/api/v1/read/".toList ++ id) (httpReadParams start opts) = some ("/api/v1/read/".toList ++ id, q) ∧
      gatewayRead id q = some (asked id start opts) := by
  obtain ⟨q, h1, h2, -⟩ := C132_seen ("api/v1/read/".toList ++ id) _ (readParams_proper start opts)
  exact ⟨q, h1, by rw [gatewayRead_same h2, C52_http id start opts hs hr hk]⟩

example : FitsInt64 5 ∧ (∀ o ∈ [ReadOpt.nameFilter "^a|b&c$".toList], OptInRange o) ∧
    (∀ o ∈ [ReadOpt.nameFilter "^a|b&c$".toList], OptKnown o) := by
  refine ⟨by unfold FitsInt64; norm_num, ?_, ?_⟩ <;> · intro o ho; rw [List.mem_singleton.1 ho]; trivial

/-- The same for the queries of the library. -/
theorem C132_promql (query : Str) (opts : List PromOpt) :
    (∃ q, seenRequest (httpPromQL query opts).path (httpPromQL query opts).params = some ("/api/v1/query".toList, q) ∧
      gatewayInstant q = askedInstant query opts) ∧
    ∃ q, seenRequest (httpPromQLRange query opts).path (httpPromQLRange query opts).params =
        some ("/api/v1/query_range".toList, q) ∧ gatewayRange q = askedRange query opts := by
  have hasked := C104_requests query opts
  constructor
  · obtain ⟨q, h1, h2, -⟩ := C132_seen "api/v1/query".toList _ (promParams_proper query opts)
    refine ⟨q, h1, ?_⟩
    rw [← hasked.2.1]
    unfold gatewayInstant Values.first httpPromQL
    simp only [h2 _]
  · obtain ⟨q, h1, h2, -⟩ := C132_seen "api/v1/query_range".toList _ (promParams_proper query opts)
    refine ⟨q, h1, ?_⟩
    rw [← hasked.2.2.2]
    unfold gatewayRange Values.first httpPromQLRange
    simp only [h2 _]

/-! ## Malformed parameters -/

theorem unescape_malformed (plus : Bool) : ∀ (n : Nat) (a : List UInt8), a.length ≤ n → urlUnescape plus (a ++ [37]) = none := by
  intro n
  induction n with
  | zero =>
    intro a ha
    have : a = [] := List.length_eq_zero_iff.1 (by omega)
    subst this
    rw [List.nil_append, urlUnescape.eq_def]
    simp
  | succ n ih =>
    intro a ha
    match a with
    | [] => rw [List.nil_append, urlUnescape.eq_def]; simp
    | [b] =>
      rw [List.cons_append, List.nil_append, urlUnescape.eq_def]
      by_cases hb : b = 37
      · simp [hb]
      · have := ih [] (by simp)
        rw [List.nil_append] at this
        simp [hb, this]
    | [b, c] =>
      rw [List.cons_append, urlUnescape.eq_def]
      by_cases hb : b = 37
      · simp only [if_pos hb, List.cons_append, List.nil_append]
        have : unHex 37 = none := by decide
        rw [this]
        split <;> simp_all
      · have := ih [c] (by simp at ha ⊢; omega)
        simp [hb] at this ⊢
        simp [this]
    | b :: c :: d :: t =>
      rw [List.cons_append, urlUnescape.eq_def]
      by_cases hb : b = 37
      · have := ih t (by simp at ha ⊢; omega)
        simp only [if_pos hb, List.cons_append, this]
        split <;> simp_all
      · have := ih (c :: d :: t) (by simp at ha ⊢; omega)
        simp only [List.cons_append] at this
        simp [hb, this]

theorem cutAmp_snoc (s p : List UInt8) (h1 : 38 ∉ p) (h2 : 59 ∉ p) : cutAmp (s ++ 38 :: p) = cutAmp s ++ [p] := by
  induction s with
  | nil => simp [cutAmp, cutAmp_whole h1 h2]
  | cons b t ih =>
    rw [List.cons_append, cutAmp, cutAmp, ih]
    split
    · rfl
    · rcases h : cutAmp t with _ | ⟨x, xs⟩
      · exact absurd h (cutAmp_ne t)
      · rfl

/-- "A request with a parameter that cannot be read is refused" is false: such a parameter is
left out, and the request served as if it had not been given. -/
theorem C132_malformed_false (query key value : List UInt8) (hv : Malformed value)
    (hk : 61 ∉ key) (hkey : 38 ∉ key ∧ 59 ∉ key) (hval : 38 ∉ value ∧ 59 ∉ value) :
    parseQuery (query ++ 38 :: (key ++ 61 :: value)) = parseQuery query := by
  obtain ⟨a, rfl⟩ := hv
  unfold parseQuery
  have hno : ∀ x : UInt8, x ≠ 61 → x ∉ key → x ∉ (a ++ [37]) → x ∉ key ++ 61 :: (a ++ [37]) := by
    intro x h1 h2 h3
    rw [List.mem_append, List.mem_cons]
    rintro (h | h | h)
    · exact h2 h
    · exact h1 h
    · exact h3 h
  rw [cutAmp_snoc _ _ (hno _ (by decide) hkey.1 hval.1) (hno _ (by decide) hkey.2 hval.2), List.filterMap_append]
  have : parsePair (key ++ 61 :: (a ++ [37])) = none := by
    unfold parsePair
    rw [if_neg (by simp), cutAt_append hk]
    simp only [Option.getD_some, unescape_malformed true a.length a (Nat.le_refl _)]
    split
    · next h => cases h
    · rfl
  simp [this]

example : Malformed "5%".toUTF8.toList ∧ 61 ∉ "limit".toUTF8.toList ∧
    (38 ∉ "limit".toUTF8.toList ∧ 59 ∉ "limit".toUTF8.toList) ∧ (38 ∉ "5%".toUTF8.toList ∧ 59 ∉ "5%".toUTF8.toList) :=
  ⟨⟨[53], by decide +kernel⟩, by decide +kernel, by decide +kernel, by decide +kernel⟩

end LogCache
