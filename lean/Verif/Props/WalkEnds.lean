import Verif.Props.Walk
import Verif.Proof.Witness

/-!
# When a walk with an end time ends (C146)
-/

namespace LogCache
open Spec

/-- The number of reads of a walk whose back-off gives up at the `n`-th read in a row without a
delivery; `m` is the number of such reads so far. -/
theorem walk_reads {β : Type} {bo : Backoff β} {n : Nat} {m : β → Int} (hn : 1 ≤ n)
    (hm : ∀ b b', bo.onErr b = (b', true) ∨ bo.onEmpty b = (b', true) → m b' = m b + 1 ∧ m b' < n)
    (hr : ∀ b, m (bo.reset b) = 0) {c : WalkCfg} {stop : Int} (hstop : c.stop = some stop) {src : Str}
    {s : WalkState β} {tr : List (WalkIn × Option (List Envelope))} {r : Option (WalkState β)}
    (h : WalkRun bo c src SortedReader s tr r) (hs : m s.b < n) :
    (tr.length : Int) + m s.b ≤ n * ((delivered tr).length + 1) ∧ (delivered tr).length ≤ (stop - s.start).toNat := by
  induction h with
  | nil s =>
    simp [delivered]
    omega
  | @done s i v h1 h2 =>
    cases v with
    | none =>
      simp [delivered]
      omega
    | some d =>
      obtain ⟨es, now, more, last, rfl, rfl, hl, -⟩ := walkStep_visit h2
      have hmem := List.mem_of_getLast? hl
      have h3 : last ∈ es := (walkTrim_prefix _ _ _ _).subset hmem
      have h4 : s.start ≤ last.timestamp := h1.2 last h3
      have h5 : last.timestamp < stop := by
        rw [walkTrim_filter _ _ _ h1.1] at hmem
        have := (List.mem_filter.1 hmem).2
        unfold keeps at this
        rw [hstop] at this
        simp at this
        exact this.2
      simp only [delivered, List.filterMap_cons, List.filterMap_nil, List.length_cons, List.length_nil]
      omega
  | @step s s' i v tr r h1 h2 _ ih =>
    cases v with
    | none =>
      obtain ⟨h3, h4⟩ := walkStep_idle h2
      have h5 : m s'.b = m s.b + 1 ∧ m s'.b < n := by
        rcases h4 with ⟨-, -, h⟩ | ⟨_, _, _, -, -, -, h⟩
        · exact hm _ _ (Or.inl h)
        · exact hm _ _ (Or.inr h)
      obtain ⟨i1, i2⟩ := ih h5.2
      have : delivered ((i, none) :: tr) = delivered tr := rfl
      rw [this, List.length_cons, ← h3]
      exact ⟨by omega, i2⟩
    | some d =>
      obtain ⟨es, now, more, last, rfl, rfl, hl, hn'⟩ := walkStep_visit h2
      have hmem := List.mem_of_getLast? hl
      have h3 : last ∈ es := (walkTrim_prefix _ _ _ _).subset hmem
      have h4 : s.start ≤ last.timestamp := h1.2 last h3
      split at hn'
      · cases hn'
      · rename_i ho
        cases hn'
        have h5 : last.timestamp + 1 < stop := by
          unfold walkOver at ho
          rw [hstop] at ho
          simp at ho
          omega
        obtain ⟨i1, i2⟩ := ih (by rw [hr]; omega)
        rw [hr] at i1
        have : (delivered ((WalkIn.got es now more, some (walkTrim c s.receivedEmpty now es)) :: tr)).length =
          (delivered tr).length + 1 := rfl
        rw [this, List.length_cons, Int.natCast_succ (delivered tr).length, Int.mul_add (n : Int) _ 1]
        simp only at i1 i2
        exact ⟨by omega, by omega⟩

/-- A walk with an end time and `RetryBackoff n` makes at most `n` reads per delivered batch and
`n` more, whatever a reader that keeps to the start time answers and whenever it fails; it
delivers at most as many batches as its window is nanoseconds wide. So it ends. -/
theorem C146_ends {n : Nat} {onlyErr : Bool} {c : WalkCfg} {stop : Int} (hn : 1 ≤ n) (hstop : c.stop = some stop)
    {src : Str} {tr : List (WalkIn × Option (List Envelope))} {r : Option (WalkState Int)}
    (h : WalkRun (retryBackoff n onlyErr) c src SortedReader (walkInit c 0) tr r) :
    tr.length ≤ n * ((delivered tr).length + 1) ∧ (delivered tr).length ≤ (stop - c.start).toNat ∧
    tr.length ≤ n * ((stop - c.start).toNat + 1) := by
  have h1 := walk_reads (m := id) hn (by
    rintro b b' (h | h) <;> unfold retryBackoff at h <;> simp only at h
    · split at h
      · cases h
      · cases h; exact ⟨rfl, by simp; omega⟩
    · split at h
      · cases h
      · split at h
        · cases h
        · cases h; exact ⟨rfl, by simp; omega⟩) (fun _ => rfl) hstop h (by simp [walkInit]; omega)
  have h2 : tr.length ≤ n * ((delivered tr).length + 1) := by
    have := h1.1
    simp only [walkInit, id, Int.add_zero] at this
    exact_mod_cast this
  exact ⟨h2, h1.2, Nat.le_trans h2 (Nat.mul_le_mul_left _ (by have := h1.2; simp [walkInit] at this; omega))⟩

/-- Without a back-off (`AlwaysDoneBackoff`, the default) there is one read more than batches. -/
theorem C146_default {c : WalkCfg} {stop : Int} (hstop : c.stop = some stop) {src : Str}
    {tr : List (WalkIn × Option (List Envelope))} {r : Option (WalkState Unit)}
    (h : WalkRun alwaysDone c src SortedReader (walkInit c ()) tr r) :
    tr.length ≤ (delivered tr).length + 1 ∧ (delivered tr).length ≤ (stop - c.start).toNat := by
  have h1 := walk_reads (n := 1) (m := fun _ => 0) (by omega) (by
    rintro b b' (h | h) <;> cases h) (fun _ => rfl) hstop h (by omega)
  refine ⟨by have := h1.1; omega, h1.2⟩

/-- Three failures, a batch, and two more failures. -/
example : WalkRun (retryBackoff 4 false) { stop := some 100, delay := 0 } [] SortedReader (walkInit { stop := some 100, delay := 0 } 0)
    [(.failed false, none), (.failed false, none), (.failed false, none), (.got [logAt 5, logAt 7] 200 true, some [logAt 5, logAt 7]),
      (.failed false, none), (.failed false, none)] (some ⟨8, false, 2⟩) :=
  .step trivial rfl (.step trivial rfl (.step trivial rfl (.step ⟨by decide, by decide⟩ rfl
    (.step trivial rfl (.step trivial rfl (.nil _))))))

/-- With `AlwaysRetryBackoff` a walk over a fixed log ends only when its context ends, its
visitor says so, or it has delivered an envelope of the very last nanosecond of its window. -/
theorem C146_retry_partial {c : WalkCfg} {stop : Int} (hstop : c.stop = some stop) {src : Str} {log : List Envelope} {limit : Nat}
    {tr : List (WalkIn × Option (List Envelope))}
    (h : WalkRun alwaysRetry c src (LogReader log limit c.delay) (walkInit c ()) tr none) :
    (∃ v, (WalkIn.failed true, v) ∈ tr) ∨ ∃ e ∈ (delivered tr).flatten, e.timestamp + 1 = stop := by
  generalize hr : (none : Option (WalkState Unit)) = r at h
  generalize walkInit c () = s at h
  induction h with
  | nil => cases hr
  | @done s i v h1 h2 =>
    cases v with
    | some d =>
      obtain ⟨es, now, more, last, rfl, rfl, hl, hn⟩ := walkStep_visit h2
      right
      have hmem := List.mem_of_getLast? hl
      have h3 : last ∈ es := (walkTrim_prefix _ _ _ _).subset hmem
      rw [h1.1] at h3
      have h4 := (List.mem_filter.1 (List.mem_of_mem_take h3)).2
      simp only [walkRequest, hstop, Option.getD_some, Bool.and_eq_true, decide_eq_true_eq] at h4
      refine ⟨last, by simpa [delivered] using hmem, ?_⟩
      split at hn
      · rename_i ho
        unfold walkOver at ho
        rw [hstop, h1.2.1] at ho
        simp at ho
        omega
      · cases hn
    | none =>
      left
      cases i with
      | failed ctx =>
        cases ctx with
        | true => exact ⟨none, List.mem_cons_self⟩
        | false => simp [walkStep, alwaysRetry] at h2
      | got es now more =>
        unfold walkStep at h2
        simp only at h2
        split at h2 <;> simp [alwaysRetry] at h2
  | @step s s' i v tr r h1 h2 _ ih =>
    rcases ih hr with ⟨v', hv⟩ | ⟨e, he, hts⟩
    · exact Or.inl ⟨v', List.mem_cons_of_mem _ hv⟩
    · right
      refine ⟨e, ?_, hts⟩
      cases v with
      | none => exact he
      | some d => exact List.mem_append_right _ he

/-- The documentation of `WithWalkEndTime` promises that the walk exits. Over a log in which
nothing has the last timestamp of the window, one with `AlwaysRetryBackoff` can be kept going
for any number of reads, all of them long after its end time and none of them failed. -/
theorem C146_retry_false {c : WalkCfg} {stop : Int} (hstop : c.stop = some stop) {src : Str} {log : List Envelope} {limit : Nat}
    (hlast : ∀ e ∈ log, e.timestamp + 1 ≠ stop) {now : Int} (hnow : ∀ e ∈ log, e.timestamp ≤ now - c.delay) (n : Nat) :
    ∃ tr s, WalkRun alwaysRetry c src (LogReader log limit c.delay) (walkInit c ()) tr (some s) ∧ tr.length = n ∧
      ∀ x ∈ tr, ∃ es, x.1 = .got es now true := by
  generalize walkInit c () = s
  induction n generalizing s with
  | zero => exact ⟨[], s, .nil s, rfl, by simp⟩
  | succ n ih =>
    have h1 : LogReader log limit c.delay (walkRequest c src s.start)
        (.got ((between s.start stop log).take limit) now true) := by
      refine ⟨?_, rfl, hnow⟩
      simp [walkRequest, hstop]
    rcases h2 : walkStep alwaysRetry c s (.got ((between s.start stop log).take limit) now true) with ⟨v, o⟩
    cases o with
    | some s' =>
      obtain ⟨tr, t, ht, hl, ha⟩ := ih s'
      refine ⟨_, t, .step h1 h2 ht, by simp [hl], ?_⟩
      intro x hx
      rcases List.mem_cons.1 hx with rfl | hx
      · exact ⟨_, rfl⟩
      · exact ha x hx
    | none =>
      exfalso
      cases v with
      | none =>
        unfold walkStep at h2
        simp only at h2
        split at h2 <;> simp [alwaysRetry] at h2
      | some d =>
        obtain ⟨es, now', more, last, he, rfl, hl, hn⟩ := walkStep_visit h2
        cases he
        have hmem := List.mem_of_getLast? hl
        have h3 := List.mem_of_mem_take ((walkTrim_prefix _ _ _ _).subset hmem)
        have h4 := (List.mem_filter.1 h3).2
        simp only [Bool.and_eq_true, decide_eq_true_eq] at h4
        have h5 := hlast last (List.mem_filter.1 h3).1
        split at hn
        · rename_i ho
          unfold walkOver at ho
          rw [hstop] at ho
          simp at ho
          omega
        · cases hn

/-- A log without an envelope in the last nanosecond of a window. -/
example : (∀ e ∈ [logAt 5, logAt 7], e.timestamp + 1 ≠ 100) ∧ ∀ e ∈ [logAt 5, logAt 7], e.timestamp ≤ 200 - 100 := by decide

end LogCache
