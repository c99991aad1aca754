import Verif.Proof.Burst
/-! # Building concrete histories -/
namespace LogCache

/-- Execute calls in order. -/
def execAll : Store → List Op → Option Store
  | st, [] => some st
  | st, op :: ops =>
    match op.exec st with
    | none => none
    | some st' => execAll st' ops

theorem run_execAll {st0 st : Store} {pre : List Op} (h : Run st0 pre st) (ops : List Op)
    {st' : Store} (hn : ∀ op ∈ ops, op.isPrune = false) (hx : execAll st ops = some st') :
    Run st0 (pre ++ ops) st' := by
  induction ops generalizing st pre with
  | nil => simp only [execAll, Option.some.injEq] at hx; subst hx; simpa using h
  | cons op t ih =>
    simp only [execAll] at hx
    split at hx
    · cases hx
    · rename_i st1 h1
      have hv : op.valid st := by
        have := hn op (by simp)
        cases op <;> simp_all [Op.valid, Op.isPrune]
      have := ih (Run.snoc h hv h1) (fun o ho => hn o (by simp [ho])) hx
      simpa using this

/-- A history of Puts. -/
def puts (l : List (String × Envelope)) : List Op := l.map fun p => .put 0 p.1.toList p.2

theorem run_puts {cfg : Config} {l : List (String × Envelope)} {st : Store}
    (h : execAll (newStore cfg) (puts l) = some st) : Run (newStore cfg) (puts l) st := by
  have := run_execAll (Run.nil (newStore cfg)) (puts l) (st' := st) ?_ h
  · simpa using this
  · intro op hop
    obtain ⟨p, -, rfl⟩ := List.mem_map.1 hop
    rfl

/-- The store after a history of Puts (only used when they do not panic). -/
def after (cfg : Config) (l : List (String × Envelope)) : Store :=
  (execAll (newStore cfg) (puts l)).getD (newStore cfg)

theorem run_after {cfg : Config} {l : List (String × Envelope)}
    (h : (execAll (newStore cfg) (puts l)).isSome = true) :
    Run (newStore cfg) (puts l) (after cfg l) := by
  apply run_puts
  unfold after
  cases hx : execAll (newStore cfg) (puts l) with
  | none => rw [hx] at h; cases h
  | some s => rfl

theorem distinct_puts {l : List (String × Envelope)}
    (h : (l.map fun p => (p.1.toList, p.2.timestamp)).Nodup) : DistinctTs (puts l) := by
  intro src
  induction l with
  | nil => exact List.Pairwise.nil
  | cons p t ih =>
    rw [List.map_cons, List.nodup_cons] at h
    have e : putsOf (puts (p :: t)) src = putsOf [.put 0 p.1.toList p.2] src ++ putsOf (puts t) src :=
      putsOf_append [.put 0 p.1.toList p.2] (puts t) src
    rw [e, putsOf_put]
    split
    · rename_i hs
      rw [List.singleton_append, List.map_cons, List.nodup_cons]
      refine ⟨?_, ih h.2⟩
      intro hm
      obtain ⟨x, hx, hxe⟩ := List.mem_map.1 hm
      obtain ⟨op, hop, hoe⟩ := List.mem_filterMap.1 hx
      obtain ⟨q, hq, rfl⟩ := List.mem_map.1 hop
      simp only at hoe
      split at hoe
      · rename_i hqs
        cases hoe
        exact h.1 (List.mem_map.2 ⟨q, hq, by simp [hqs, hs, hxe]⟩)
      · cases hoe
    · exact ih h.2

/-- A log envelope with a timestamp and a payload. -/
def logAt (ts : Int) (payload : String := "") : Envelope :=
  { timestamp := ts, message := some (.log payload.toList false) }

end LogCache
