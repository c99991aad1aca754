import Verif.Model.Reader
import Verif.Props.Store
/-!
# Property theorems about the Read API (C24, C25, C26)
-/
namespace LogCache
open Spec

/-- A read request is rejected exactly when the window is inverted, the limit is
out of range or the name filter does not compile. -/
theorem C24_rejected_iff (compile : Str → Option (Str → Bool)) (now : Int) (st : Store)
    (req : ReadRequest) :
    (∃ err, localRead compile now st req = some (.error err)) ↔
      (req.stop ≠ 0 ∧ req.start > req.stop) ∨ req.limit > 1000 ∨ req.limit < 0 ∨
      (req.nameFilter ≠ [] ∧ compile req.nameFilter = none) := by
  have key : (∃ err, localRead compile now st req = some (.error err)) ↔
      ∃ err, readArgs compile now req = .error err := by
    unfold localRead
    cases readArgs compile now req with
    | error e => simp
    | ok a => simp only; cases get st req.sourceId a <;> simp
  rw [key]
  unfold readArgs
  by_cases h1 : req.stop ≠ 0 ∧ req.start > req.stop
  · rw [if_pos h1]; exact ⟨fun _ => Or.inl h1, fun _ => ⟨_, rfl⟩⟩
  rw [if_neg h1]
  by_cases h2 : req.limit > 1000
  · rw [if_pos h2]; exact ⟨fun _ => Or.inr (Or.inl h2), fun _ => ⟨_, rfl⟩⟩
  rw [if_neg h2]
  by_cases h3 : req.limit < 0
  · rw [if_pos h3]; exact ⟨fun _ => Or.inr (Or.inr (Or.inl h3)), fun _ => ⟨_, rfl⟩⟩
  rw [if_neg h3]
  by_cases h4 : req.nameFilter ≠ []
  · cases hcm : compile req.nameFilter <;> simp [h4, h1, h2, h3]
  · simp only [if_neg h4]
    refine ⟨fun hh => (by obtain ⟨_, h⟩ := hh; cases h), ?_⟩
    rintro (h | h | h | ⟨h, _⟩)
    · exact absurd h h1
    · exact absurd h h2
    · exact absurd h h3
    · exact absurd h h4

/-- An accepted request reads the window `[start, end)` with end 0 meaning now and
limit 0 meaning 100. -/
theorem C24_defaults (compile : Str → Option (Str → Bool)) (now : Int) (st : Store)
    (req : ReadRequest) {res : List Envelope} (h : localRead compile now st req = some (.ok res)) :
    ∃ a : GetArgs, get st req.sourceId a = some res ∧ a.start = req.start ∧
      a.stop = (if req.stop = 0 then now else req.stop) ∧
      a.limit = (if req.limit = 0 then 100 else req.limit) ∧ 1 ≤ a.limit ∧ a.limit ≤ 1000 ∧
      a.descending = req.descending ∧
      (a.nameFilter = if req.nameFilter = [] then none else compile req.nameFilter) := by
  unfold localRead readArgs at h
  split at h
  · cases h
  · rename_i a ha
    split at h
    · cases h
    · rename_i res' hg
      cases h
      refine ⟨a, hg, ?_⟩
      split at ha
      · cases ha
      · split at ha
        · cases ha
        · split at ha
          · cases ha
          · simp only at ha
            split at ha
            · rename_i h1 h2 h3 h4
              split at ha
              · cases ha
              · rename_i m hm
                cases ha
                refine ⟨rfl, rfl, rfl, ?_, ?_, rfl, by simp [h4, hm]⟩ <;> simp only <;> split <;> omega
            · rename_i h1 h2 h3 h4
              cases ha
              refine ⟨rfl, rfl, rfl, ?_, ?_, rfl, ?_⟩
              · simp only; split <;> omega
              · simp only; split <;> omega
              · simp at h4; simp [h4]

example : ∃ ops st, Run (newStore { maxPerSource := 5 }) ops st ∧
    localRead (fun _ => none) 9 st { sourceId := "a".toList } = some (.ok [logAt 1]) ∧
    localRead (fun _ => none) 9 st { sourceId := "a".toList, limit := 1001 } =
      some (.error .limitTooLarge) ∧
    localRead (fun _ => none) 9 st { sourceId := "a".toList, nameFilter := ['('] } =
      some (.error .badNameFilter) :=
  ⟨_, _, run_after (cfg := { maxPerSource := 5 }) (l := [("a", logAt 1), ("a", logAt 9)])
    (by decide), rfl, rfl, rfl⟩

theorem typeOk_requested (ts : List EType) (e : Envelope) :
    typeOk (requestedTypes ts) e =
      (decide (∀ t ∈ ts, t = .any) || decide (∃ t ∈ ts, kind e = some t)) := by
  unfold requestedTypes
  simp only
  by_cases hall : ∀ t ∈ ts, t = EType.any
  · have : ts.filter (fun t => t ≠ EType.any) = [] := by
      rw [List.filter_eq_nil_iff]; intro t ht; simp [hall t ht]
    rw [this]; simp [typeOk]; exact Or.inl hall
  · have hne : ts.filter (fun t => t ≠ EType.any) ≠ [] := by
      intro h; rw [List.filter_eq_nil_iff] at h
      apply hall; intro t ht
      have := h t ht; simpa using this
    have : (ts.filter (fun t => t ≠ EType.any)).isEmpty = false := by
      cases h : ts.filter (fun t => t ≠ EType.any) with
      | nil => exact absurd h hne
      | cons => rfl
    rw [this]
    simp only [Bool.false_eq_true, if_false, typeOk]
    have hany : EType.any ∉ ts.filter (fun t => t ≠ EType.any) := by
      intro h; have := (List.mem_filter.1 h).2; simp at this
    have hk : kind e ≠ some .any := by
      unfold kind
      cases e.message with
      | none => simp
      | some m => cases m <;> simp
    rw [decide_eq_false hany, decide_eq_false hall, Bool.false_or, Bool.false_or]
    apply decide_eq_decide.2
    constructor
    · rintro ⟨t, ht, hte⟩; exact ⟨t, (List.mem_filter.1 ht).1, hte⟩
    · rintro ⟨t, ht, hte⟩
      refine ⟨t, List.mem_filter.2 ⟨ht, ?_⟩, hte⟩
      rw [decide_eq_true_eq]; rintro rfl; exact hk hte

/-- Requesting no type, or only `ANY`, selects every envelope; otherwise exactly
the envelopes whose message has one of the requested types: `ANY` beside other
types is ignored. -/
theorem C25_any (compile : Str → Option (Str → Bool)) (now : Int) (req : ReadRequest)
    {a : GetArgs} (h : readArgs compile now req = .ok a) (e : Envelope) :
    typeOk a.types e = true ↔
      (∀ t ∈ req.types, t = .any) ∨ ∃ t ∈ req.types, kind e = some t := by
  have ht : a.types = requestedTypes req.types := by
    unfold readArgs at h
    split at h
    · cases h
    · split at h
      · cases h
      · split at h
        · cases h
        · simp only at h
          split at h
          · split at h <;> cases h; rfl
          · cases h; rfl
  rw [ht, typeOk_requested]
  simp

/-- `[ANY, COUNTER]` does not return logs. -/
theorem C25_any_ignored :
    ∃ ops st, Run (newStore { maxPerSource := 5 }) ops st ∧
      localRead (fun _ => none) 9 st { sourceId := "a".toList, types := [.any, .counter] } =
        some (.ok []) ∧
      localRead (fun _ => none) 9 st { sourceId := "a".toList, types := [.any] } =
        some (.ok [logAt 1]) :=
  ⟨_, _, run_after (cfg := { maxPerSource := 5 }) (l := [("a", logAt 1)])
    (by decide), rfl, rfl⟩

/-- End to end through the Read API: with distinct timestamps an accepted request
returns the first `limit` envelopes of the abstract log of the source that lie in
the window and match; types and the name filter as requested. -/
theorem C26_read_api {cfg : Config} (hc : 1 ≤ cfg.maxPerSource) {ops : List Op} {st : Store}
    (h : Run (newStore cfg) ops st) (hd : DistinctTs ops) :
    ∃ A : Str → List Envelope, LogRun cfg ops A ∧
      ∀ compile now (req : ReadRequest), (∀ n, EType.other n ∉ req.types) →
        (∃ err, localRead compile now st req = some (.error err)) ∨
        localRead compile now st req = some (.ok
          ((((((if req.descending then (A req.sourceId).reverse else A req.sourceId).filter
              (inWindow req.start (if req.stop = 0 then now else req.stop))).filterMap
              (project (if req.nameFilter = [] then none else compile req.nameFilter))).filter
              (fun e => decide (∀ t ∈ req.types, t = .any) ||
                decide (∃ t ∈ req.types, kind e = some t)))).take
            (if req.limit = 0 then 100 else req.limit).toNat)) := by
  obtain ⟨A, hA, hread⟩ := C26_read_contract hc h hd
  refine ⟨A, hA, ?_⟩
  intro compile now req hk
  cases ha : readArgs compile now req with
  | error e => left; exact ⟨e, by unfold localRead; rw [ha]⟩
  | ok a =>
    right
    have hknown : ∀ ts, a.types = some ts → ∀ n, EType.other n ∉ ts := by
      intro ts hts n hm
      have ht : a.types = requestedTypes req.types := by
        unfold readArgs at ha
        split at ha
        · cases ha
        · split at ha
          · cases ha
          · split at ha
            · cases ha
            · simp only at ha
              split at ha
              · split at ha <;> cases ha; rfl
              · cases ha; rfl
      rw [ht] at hts
      unfold requestedTypes at hts
      simp only at hts
      split at hts
      · cases hts
      · cases hts; exact hk n (List.mem_filter.1 hm).1
    have hty : typeOk a.types = fun e => (decide (∀ t ∈ req.types, t = .any) ||
                decide (∃ t ∈ req.types, kind e = some t)) := by
      funext e
      have := C25_any compile now req ha e
      cases hb : typeOk a.types e with
      | true => rw [hb] at this; simpa using this.1 rfl
      | false =>
        rw [hb] at this
        cases hb2 : (decide (∀ t ∈ req.types, t = EType.any) ||
            decide (∃ t ∈ req.types, kind e = some t)) with
        | false => rfl
        | true => have := this.2 (by simpa using hb2); cases this
    have hl : ∃ res, localRead compile now st req = some (.ok res) := by
      obtain ⟨res, hres⟩ := C02_read_total st req.sourceId a hknown
      exact ⟨res, by unfold localRead; rw [ha]; simp only [hres]⟩
    obtain ⟨res, hres⟩ := hl
    obtain ⟨a', hg, h1, h2, h3, h4, h5, h6, h7⟩ := C24_defaults compile now st req hres
    have hg2 : get st req.sourceId a = some res := by
      unfold localRead at hres; rw [ha] at hres
      simp only at hres
      split at hres
      · cases hres
      · rename_i r hr; cases hres; exact hr
    have hfields : a.start = req.start ∧ a.stop = (if req.stop = 0 then now else req.stop) ∧
        a.limit = (if req.limit = 0 then 100 else req.limit) ∧ 1 ≤ a.limit ∧
        a.descending = req.descending ∧
        a.nameFilter = (if req.nameFilter = [] then none else compile req.nameFilter) := by
      unfold readArgs at ha
      split at ha
      · cases ha
      · split at ha
        · cases ha
        · split at ha
          · cases ha
          · simp only at ha
            split at ha
            · rename_i hnf
              split at ha
              · cases ha
              · rename_i m hm
                cases ha
                refine ⟨rfl, rfl, rfl, ?_, rfl, by simp [hnf, hm]⟩
                simp only; split <;> omega
            · rename_i hnf
              cases ha
              refine ⟨rfl, rfl, rfl, ?_, rfl, ?_⟩
              · simp only; split <;> omega
              · simp at hnf; simp [hnf]
    obtain ⟨f1, f2, f3, f4, f5, f6⟩ := hfields
    have hc26 := hread req.sourceId a f4 hknown
    rw [hg2] at hc26
    rw [hres]
    cases hc26
    unfold answer
    rw [hty, f1, f2, f3, f5, f6]

end LogCache
