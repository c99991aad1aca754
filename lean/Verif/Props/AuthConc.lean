import Verif.Spec.AuthConc
import Verif.Proof.AuthConc

/-! # C123, C124: withdrawn keys and withdrawn rights, with overlapping requests -/

namespace LogCache
open Spec

/-! ## C123 -/

/-- The run up to a position. -/
theorem uaaRun_prefix {κ : Type} {m : Int} {published : Int → List (Str × Option κ)} {evs : List (Int × UaaAct κ)}
    {clock : Int} {s : UaaConc κ} (h : UaaRun m published evs clock s) : ∀ pre post, evs = pre ++ post →
      ∃ c0 s0, UaaRun m published pre c0 s0 ∧ c0 ≤ clock := by
  induction h with
  | nil =>
    intro pre post he
    obtain ⟨rfl, rfl⟩ := List.append_eq_nil_iff.1 he.symm
    exact ⟨0, {}, .nil, Int.le_refl _⟩
  | @snoc evs clock s now act s' hr hc hm ih =>
    intro pre post he
    rcases List.eq_nil_or_concat post with rfl | ⟨post', x, rfl⟩
    · rw [List.append_nil] at he
      subst he
      exact ⟨now, s', .snoc hr hc hm, Int.le_refl _⟩
    · rw [List.concat_eq_append, ← List.append_assoc] at he
      obtain ⟨h1, -⟩ := List.append_inj' he rfl
      obtain ⟨c0, s0, h2, h3⟩ := ih pre post' h1
      exact ⟨c0, s0, h2, by omega⟩

/-- Every key a token is checked with was published by UAA. -/
theorem C123_published {κ : Type} (m : Int) (published : Int → List (Str × Option κ))
    (evs : List (Int × UaaAct κ)) (clock : Int) (s : UaaConc κ) (h : UaaRun m published evs clock s) :
    ∀ now kid k, (now, UaaAct.used kid k) ∈ evs → ∃ t0, PublishedIn published kid k t0 now := by
  intro now kid k hmem
  obtain ⟨pre, post, rfl⟩ := List.append_of_mem hmem
  obtain ⟨c0, s0, h1, -⟩ := uaaRun_prefix h (pre ++ [(now, .used kid k)]) post (by simp)
  obtain ⟨c1, s1, h2, h3, h4, -⟩ := uaaRun_last h1
  cases h4 with
  | used hl =>
    obtain ⟨τ, h5, h6⟩ := (pub_inv h2).1 kid k hl
    exact ⟨τ, τ, Int.le_refl _, by omega, h6⟩

/-- What a call has still to go through was published after it asked. -/
theorem pending_asked {κ : Type} {m : Int} {published : Int → List (Str × Option κ)} {evs : List (Int × UaaAct κ)}
    {clock : Int} {s : UaaConc κ} (h : UaaRun m published evs clock s) :
    (∀ (i : Nat) since, s.calls[i]? = some (.asking since) → (since, UaaAct.asked i) ∈ evs) ∧
    ∀ (i : Nat) (ph : RefPhase κ), s.calls[i]? = some ph → ∀ p ∈ ph.pending,
      ∃ ta τ, (ta, UaaAct.asked i) ∈ evs ∧ ta ≤ τ ∧ τ ≤ clock ∧ p ∈ published τ := by
  induction h with
  | nil => exact ⟨fun i since h => by simp at h, fun i ph h => by simp at h⟩
  | @snoc evs clock s now act s' hr hc hm ih =>
    obtain ⟨ih1, ih2⟩ := ih
    have a1 : ∀ (i : Nat) since, s.calls[i]? = some (.asking since) →
        (since, UaaAct.asked i) ∈ evs ++ [(now, act)] :=
      fun i since h => List.mem_append_left _ (ih1 i since h)
    have a2 : ∀ (i : Nat) (ph : RefPhase κ), s.calls[i]? = some ph → ∀ p ∈ ph.pending,
        ∃ ta τ, (ta, UaaAct.asked i) ∈ evs ++ [(now, act)] ∧ ta ≤ τ ∧ τ ≤ now ∧ p ∈ published τ := by
      intro i ph h p hp
      obtain ⟨ta, τ, h1, h2, h3, h4⟩ := ih2 i ph h p hp
      exact ⟨ta, τ, List.mem_append_left _ h1, h2, by omega, h4⟩
    have u1 : ∀ (j : Nat) (new : RefPhase κ),
        (∀ since, new = .asking since → (since, UaaAct.asked j) ∈ evs ++ [(now, act)]) →
        ∀ (i : Nat) since, (s.calls.set j new)[i]? = some (.asking since) →
          (since, UaaAct.asked i) ∈ evs ++ [(now, act)] := by
      intro j new hn i since h
      rw [List.getElem?_set] at h
      split at h
      · rename_i hji
        subst hji
        split at h
        · injection h with h
          exact hn since h
        · cases h
      · exact a1 i since h
    have u2 : ∀ (j : Nat) (new : RefPhase κ),
        (∀ p ∈ new.pending, ∃ ta τ, (ta, UaaAct.asked j) ∈ evs ++ [(now, act)] ∧ ta ≤ τ ∧ τ ≤ now ∧
          p ∈ published τ) →
        ∀ (i : Nat) (ph : RefPhase κ), (s.calls.set j new)[i]? = some ph → ∀ p ∈ ph.pending,
          ∃ ta τ, (ta, UaaAct.asked i) ∈ evs ++ [(now, act)] ∧ ta ≤ τ ∧ τ ≤ now ∧ p ∈ published τ := by
      intro j new hn i ph h
      rw [List.getElem?_set] at h
      split at h
      · rename_i hji
        subst hji
        split at h
        · injection h with h
          subst h
          exact hn
        · cases h
      · exact a2 i ph h
    cases hm with
    | began _ =>
      have e : ∀ (i : Nat) (ph : RefPhase κ), (s.calls ++ [RefPhase.passed s.lastQuery])[i]? = some ph →
          s.calls[i]? = some ph ∨ ph = .passed s.lastQuery := by
        intro i ph h
        rw [List.getElem?_append] at h
        split at h
        · exact Or.inl h
        · rw [List.getElem?_singleton] at h
          split at h
          · injection h with h; exact Or.inr h.symm
          · cases h
      refine ⟨fun i since h => ?_, fun i ph h p hp => ?_⟩
      · rcases e i _ h with h | h
        · exact a1 i since h
        · cases h
      · rcases e i _ h with h | rfl
        · exact a2 i ph h p hp
        · cases hp
    | asked _ =>
      refine ⟨u1 _ _ (fun since h => ?_), u2 _ _ (fun p hp => by cases hp)⟩
      injection h with h
      subst h
      exact List.mem_append_right _ (List.mem_singleton.2 rfl)
    | @answered i since τ hj h1 h2 =>
      refine ⟨u1 _ _ (fun since h => by cases h), u2 _ _ (fun p hp => ?_)⟩
      exact ⟨since, τ, a1 i since hj, h1, h2, hp⟩
    | failed _ => exact ⟨u1 _ _ (fun since h => by cases h), u2 _ _ (fun p hp => by cases hp)⟩
    | ranged h => exact ⟨u1 _ _ (fun since h => by cases h), u2 _ _ (fun p hp => a2 _ _ h p hp)⟩
    | visited h _ => exact ⟨u1 _ _ (fun since h => by cases h), u2 _ _ (fun p hp => a2 _ _ h p hp)⟩
    | collected h => exact ⟨u1 _ _ (fun since h => by cases h), u2 _ _ (fun p hp => a2 _ _ h p hp)⟩
    | stored h =>
      exact ⟨u1 _ _ (fun since h => by cases h), u2 _ _ (fun p hp => a2 _ _ h p (List.mem_cons_of_mem _ hp))⟩
    | bad _ => exact ⟨u1 _ _ (fun since h => by cases h), u2 _ _ (fun p hp => by cases hp)⟩
    | kept _ => exact ⟨u1 _ _ (fun since h => by cases h), u2 _ _ (fun p hp => by cases hp)⟩
    | deleted _ _ => exact ⟨u1 _ _ (fun since h => by cases h), u2 _ _ (fun p hp => by cases hp)⟩
    | finished _ => exact ⟨u1 _ _ (fun since h => by cases h), u2 _ _ (fun p hp => by cases hp)⟩
    | used _ => exact ⟨a1, a2⟩

/-- A call that has finished has ended. -/
theorem finished_ended {κ : Type} {m : Int} {published : Int → List (Str × Option κ)} {evs : List (Int × UaaAct κ)}
    {clock : Int} {s : UaaConc κ} (h : UaaRun m published evs clock s) (i : Nat) (t : Int)
    (hf : (t, UaaAct.finished i) ∈ evs) : s.calls[i]? = some (.ended true) := by
  induction h with
  | nil => cases hf
  | @snoc evs clock s now act s' hr hc hm ih =>
    rcases List.mem_append.1 hf with hf | hf
    · have hi := ih hf
      have hlt : i < s.calls.length := by
        by_contra hge
        rw [List.getElem?_eq_none (by omega)] at hi
        cases hi
      have upd : ∀ (j : Nat) (old new : RefPhase κ), s.calls[j]? = some old → old ≠ .ended true →
          (s.calls.set j new)[i]? = some (.ended true) := by
        intro j old new hj hne
        by_cases hji : j = i
        · subst hji
          rw [hi] at hj
          injection hj with hj
          exact absurd hj.symm hne
        · rw [List.getElem?_set_ne hji]; exact hi
      cases hm with
      | began _ => rw [List.getElem?_append_left hlt]; exact hi
      | asked hj => exact upd _ _ _ hj (by simp)
      | answered hj _ _ => exact upd _ _ _ hj (by simp)
      | failed hj => exact upd _ _ _ hj (by simp)
      | ranged hj => exact upd _ _ _ hj (by simp)
      | visited hj _ => exact upd _ _ _ hj (by simp)
      | collected hj => exact upd _ _ _ hj (by simp)
      | stored hj => exact upd _ _ _ hj (by simp)
      | bad hj => exact upd _ _ _ hj (by simp)
      | kept hj => exact upd _ _ _ hj (by simp)
      | deleted hj _ => exact upd _ _ _ hj (by simp)
      | finished hj => exact upd _ _ _ hj (by simp)
      | used _ => exact hi
    · have he := List.mem_singleton.1 hf
      injection he with _ he
      subst he
      cases hm with
      | finished hj =>
        have hlt : i < s.calls.length := by
          by_contra hge
          rw [List.getElem?_eq_none (by omega)] at hj
          cases hj
        rw [List.getElem?_set_self hlt]

/-- Where a key that was not published since `tq` may still be met. -/
def StaleOk {κ : Type} (kid : Str) : RefPhase κ → Prop
  | .ranging _ todo cur => kid ∈ todo ∨ kid ∈ cur
  | .storing _ cur => kid ∈ cur
  | .deleting cur => kid ∈ cur
  | .ended false => True
  | _ => False

theorem stale_inv {κ : Type} {m : Int} {published : Int → List (Str × Option κ)} {pre : List (Int × UaaAct κ)}
    {t0 tq : Int} {i : Nat} : ∀ (seg : List (Int × UaaAct κ)) (clock : Int) (s : UaaConc κ),
      UaaRun m published (pre ++ (t0, .ranged i) :: seg) clock s →
      (∀ t j kid k, (t, UaaAct.stored j kid k) ∈ seg →
        ∀ ta, (ta, UaaAct.asked j) ∈ pre ++ (t0, .ranged i) :: seg → tq ≤ ta) →
      ∃ ph, s.calls[i]? = some ph ∧ ∀ kid k, s.keys.lookup kid = some k →
        PublishedIn published kid k tq clock ∨ StaleOk kid ph := by
  intro seg
  induction seg using List.reverseRecOn with
  | nil =>
    intro clock s h _
    obtain ⟨c0, s0, h1, h2, h3, rfl⟩ := uaaRun_last h
    cases h3 with
    | ranged hj =>
      have hlt : i < s0.calls.length := by
        by_contra hge
        rw [List.getElem?_eq_none (by omega)] at hj
        cases hj
      refine ⟨.ranging _ _ _, by rw [List.getElem?_set_self hlt], fun kid k hl => Or.inr (Or.inl ?_)⟩
      by_contra hn
      rw [lookup_none_of_not_mem _ _ hn] at hl
      cases hl
  | append_singleton seg x ih =>
    obtain ⟨now, act⟩ := x
    intro clock s h hst
    have h' : UaaRun m published ((pre ++ (t0, .ranged i) :: seg) ++ [(now, act)]) clock s := by simpa using h
    obtain ⟨c0, s0, h1, h2, h3, rfl⟩ := uaaRun_last h'
    obtain ⟨ph, hph, hk⟩ := ih c0 s0 h1 (fun t j kid k hm ta ha =>
      hst t j kid k (List.mem_append_left _ hm) ta (by
        rcases List.mem_append.1 ha with ha | ha
        · exact List.mem_append_left _ ha
        · rcases List.mem_cons.1 ha with ha | ha
          · exact List.mem_append_right _ (List.mem_cons.2 (Or.inl ha))
          · exact List.mem_append_right _ (List.mem_cons_of_mem _ (List.mem_append_left _ ha))))
    have hk' : ∀ kid k, s0.keys.lookup kid = some k → PublishedIn published kid k tq clock ∨ StaleOk kid ph := by
      intro kid k hl
      rcases hk kid k hl with ⟨τ, e1, e2, e3⟩ | e
      · exact Or.inl ⟨τ, e1, by omega, e3⟩
      · exact Or.inr e
    have hlt : i < s0.calls.length := by
      by_contra hge
      rw [List.getElem?_eq_none (by omega)] at hph
      cases hph
    have upd : ∀ (j : Nat) (old new : RefPhase κ) (keys : List (Str × κ)), s0.calls[j]? = some old →
        (∀ kid k, keys.lookup kid = some k → PublishedIn published kid k tq clock ∨
          s0.keys.lookup kid = some k) →
        (∀ kid k, keys.lookup kid = some k → ¬ PublishedIn published kid k tq clock →
          j = i → StaleOk kid old → StaleOk kid new) →
        ∃ ph, (s0.calls.set j new)[i]? = some ph ∧ ∀ kid k, keys.lookup kid = some k →
          PublishedIn published kid k tq clock ∨ StaleOk kid ph := by
      intro j old new keys hj hkeys hnew
      by_cases hji : j = i
      · subst hji
        rw [hph] at hj
        injection hj with hj
        subst hj
        refine ⟨new, by rw [List.getElem?_set_self hlt], fun kid k hl => ?_⟩
        by_cases hp : PublishedIn published kid k tq clock
        · exact Or.inl hp
        · rcases hkeys kid k hl with e | e
          · exact absurd e hp
          · rcases hk' kid k e with e' | e'
            · exact absurd e' hp
            · exact Or.inr (hnew kid k hl hp rfl e')
      · refine ⟨ph, by rw [List.getElem?_set_ne hji]; exact hph, fun kid k hl => ?_⟩
        rcases hkeys kid k hl with e | e
        · exact Or.inl e
        · exact hk' kid k e
    cases h3 with
    | began _ => exact ⟨ph, by rw [List.getElem?_append_left hlt]; exact hph, hk'⟩
    | asked hj => exact upd _ _ _ _ hj (fun _ _ h => Or.inr h) (fun _ _ _ _ _ e => e.elim)
    | answered hj _ _ => exact upd _ _ _ _ hj (fun _ _ h => Or.inr h) (fun _ _ _ _ _ e => e.elim)
    | failed hj => exact upd _ _ _ _ hj (fun _ _ h => Or.inr h) (fun _ _ _ _ _ _ => trivial)
    | ranged hj => exact upd _ _ _ _ hj (fun _ _ h => Or.inr h) (fun _ _ _ _ _ e => e.elim)
    | @visited j t todo cur kid hj hm =>
      refine upd _ _ _ _ hj (fun _ _ h => Or.inr h) (fun kid' k hl _ _ e => ?_)
      by_cases he : kid' = kid
      · subst he
        right
        rw [if_pos (by rw [hl]; rfl)]
        exact List.mem_cons_self
      · rcases e with e | e
        · left; exact List.mem_filter.2 ⟨e, by simpa using he⟩
        · right; split
          · exact List.mem_cons_of_mem _ e
          · exact e
    | collected hj =>
      refine upd _ _ _ _ hj (fun _ _ h => Or.inr h) (fun kid' k hl _ _ e => ?_)
      rcases e with e | e
      · cases e
      · exact e
    | @stored j kid k rest cur hj =>
      have hfresh : PublishedIn published kid k tq clock := by
        obtain ⟨ta, τ, e1, e2, e3, e4⟩ := (pending_asked h1).2 j _ hj (kid, some k) List.mem_cons_self
        have := hst clock j kid k (List.mem_append_right _ (List.mem_singleton.2 rfl)) ta (by
          have := List.mem_append_left [(clock, UaaAct.stored j kid k)] e1
          simpa using this)
        exact ⟨τ, by omega, by omega, e4⟩
      refine upd _ _ _ _ hj (fun kid' k' hl => ?_) (fun kid' k' hl hp _ e => ?_)
      · rw [mapSet_lookup] at hl
        split at hl
        · rename_i he
          subst he
          injection hl with hl
          subst hl
          exact Or.inl hfresh
        · exact Or.inr hl
      · rw [mapSet_lookup] at hl
        split at hl
        · rename_i he
          subst he
          injection hl with hl
          subst hl
          exact absurd hfresh hp
        · rename_i he
          exact List.mem_filter.2 ⟨e, by simpa using he⟩
    | bad hj => exact upd _ _ _ _ hj (fun _ _ h => Or.inr h) (fun _ _ _ _ _ _ => trivial)
    | kept hj => exact upd _ _ _ _ hj (fun _ _ h => Or.inr h) (fun _ _ _ _ _ e => e)
    | @deleted j kid cur hj hm =>
      refine upd _ _ _ _ hj (fun kid' k' hl => ?_) (fun kid' k' hl hp _ e => ?_)
      · rw [lookup_filter_key _ (fun x => !decide (x = kid))] at hl
        split at hl
        · exact Or.inr hl
        · cases hl
      · rw [lookup_filter_key _ (fun x => !decide (x = kid))] at hl
        split at hl
        · rename_i he
          exact List.mem_filter.2 ⟨e, he⟩
        · cases hl
    | finished hj => exact upd _ _ _ _ hj (fun _ _ h => Or.inr h) (fun _ _ _ _ _ e => by cases e)
    | used _ => exact ⟨ph, hph, hk'⟩

/-- Part of `RefreshTakesEffect`: a refresh withdraws every key that was not published since
`tq`, provided that since it began to look at the known keys (`ranged`) only calls that
asked UAA at `tq` or later have stored keys. Missing: calls that asked earlier and store
later bring their keys back, see `C123_race_false`. -/
theorem C123_withdrawn_partial {κ : Type} (m : Int) (published : Int → List (Str × Option κ))
    (pre seg : List (Int × UaaAct κ)) (t0 tf tq now clock : Int) (i : Nat) (kid : Str) (k : κ) (s : UaaConc κ)
    (h : UaaRun m published (pre ++ (t0, .ranged i) :: seg ++ [(now, .used kid k)]) clock s)
    (hst : ∀ t j kid k, (t, UaaAct.stored j kid k) ∈ seg →
      ∀ ta, (ta, UaaAct.asked j) ∈ pre ++ (t0, .ranged i) :: seg → tq ≤ ta)
    (hf : (tf, UaaAct.finished i) ∈ seg) : PublishedIn published kid k tq now := by
  obtain ⟨c0, s0, h1, h2, h3, -⟩ := uaaRun_last h
  obtain ⟨ph, h4, h5⟩ := stale_inv seg c0 s0 h1 hst
  have h6 := finished_ended h1 i tf (List.mem_append_right _ (List.mem_cons_of_mem _ hf))
  rw [h6] at h4
  injection h4 with h4
  subst h4
  cases h3 with
  | used hl =>
    rcases h5 kid k hl with ⟨τ, e1, e2, e3⟩ | e
    · exact ⟨τ, e1, by omega, e3⟩
    · exact e.elim

theorem undisturbed_inv {κ : Type} {m : Int} {published : Int → List (Str × Option κ)}
    {pre : List (Int × UaaAct κ)} {t0 : Int} {i : Nat} : ∀ (seg : List (Int × UaaAct κ)) (clock : Int)
      (s : UaaConc κ), UaaRun m published (pre ++ (t0, .ranged i) :: seg) clock s →
      (∀ t j kid k, (t, UaaAct.stored j kid k) ∈ seg → j = i) →
      (∀ t j kid, (t, UaaAct.deleted j kid) ∈ seg → j = i) →
      ∃ t τ, (t, UaaAct.answered i τ) ∈ pre ∧ τ ≤ t ∧
        ∃ ph, s.calls[i]? = some ph ∧ RefOk (published τ) s.keys ph := by
  intro seg
  induction seg using List.reverseRecOn with
  | nil =>
    intro clock s h _ _
    obtain ⟨c0, s0, h1, h2, h3, rfl⟩ := uaaRun_last h
    cases h3 with
    | @ranged _ tks hj =>
      have hlt : i < s0.calls.length := by
        by_contra hge
        rw [List.getElem?_eq_none (by omega)] at hj
        cases hj
      obtain ⟨t, τ, e1, e2, e3⟩ := got_answered h1 i tks hj
      refine ⟨t, τ, e1, e3, .ranging tks (s0.keys.map Prod.fst) [], by rw [List.getElem?_set_self hlt], e2,
        fun kid hl => Or.inl ?_⟩
      by_contra hn
      simp only [] at hl
      rw [lookup_none_of_not_mem _ _ hn] at hl
      cases hl
  | append_singleton seg x ih =>
    obtain ⟨now, act⟩ := x
    intro clock s h hst hdel
    have h' : UaaRun m published ((pre ++ (t0, .ranged i) :: seg) ++ [(now, act)]) clock s := by simpa using h
    obtain ⟨c0, s0, h1, h2, h3, rfl⟩ := uaaRun_last h'
    obtain ⟨t, τ, e1, e2, e3⟩ := ih c0 s0 h1 (fun t j kid k hm => hst t j kid k (List.mem_append_left _ hm))
      (fun t j kid hm => hdel t j kid (List.mem_append_left _ hm))
    refine ⟨t, τ, e1, e2, refOk_move h3 ?_ e3⟩
    have hlast : (clock, act) ∈ seg ++ [(clock, act)] := List.mem_append_right _ (List.mem_singleton.2 rfl)
    cases act with
    | stored j kid k => exact Or.inr (congrArg some (hst _ _ _ _ hlast))
    | deleted j kid => exact Or.inr (congrArg some (hdel _ _ _ hlast))
    | _ => exact Or.inl rfl

/-- A refresh that nobody disturbs leaves exactly the keys UAA answered with: of two values
for one id the last. Missing: refreshes that overlap with others, see `C123_race_false`. -/
theorem C123_undisturbed_partial {κ : Type} (m : Int) (published : Int → List (Str × Option κ))
    (pre seg : List (Int × UaaAct κ)) (t0 tf clock : Int) (i : Nat) (s : UaaConc κ)
    (h : UaaRun m published (pre ++ (t0, .ranged i) :: seg) clock s)
    (hst : ∀ t j kid k, (t, UaaAct.stored j kid k) ∈ seg → j = i)
    (hdel : ∀ t j kid, (t, UaaAct.deleted j kid) ∈ seg → j = i)
    (hf : (tf, UaaAct.finished i) ∈ seg) :
    ∃ t τ, (t, UaaAct.answered i τ) ∈ pre ∧ τ ≤ t ∧
      ∀ kid, s.keys.lookup kid = ((published τ).reverse.lookup kid).join := by
  obtain ⟨t, τ, e1, e2, ph, e3, e4⟩ := undisturbed_inv seg clock s h hst hdel
  have h6 := finished_ended h i tf (List.mem_append_right _ (List.mem_cons_of_mem _ hf))
  rw [h6] at e3
  injection e3 with e3
  subst e3
  exact ⟨t, τ, e1, e2, e4⟩

/-! ### Concrete histories -/

/-- UAA publishes the key 7 with the id `a` until 102, and the key 8 with the id `b` from 103 on. -/
def exPublished (τ : Int) : List (Str × Option Nat) :=
  if τ ≤ 102 then [("a".toList, some 7)] else [("b".toList, some 8)]

/-- One refresh alone. -/
def aloneEvents : List (Int × UaaAct Nat) :=
  [(100, .began 0), (100, .asked 0), (101, .answered 0 101), (101, .ranged 0), (101, .collected 0),
   (101, .stored 0 "a".toList 7), (101, .kept 0), (101, .finished 0)]

theorem aloneRun : UaaRun 30 exPublished aloneEvents 101
    { keys := [("a".toList, 7)], lastQuery := 100, calls := [.ended true] } := by
  have e0 : UaaRun 30 exPublished [] 0 ({} : UaaConc Nat) := .nil
  have e1 := e0.snoc (now := 100) (by decide) (.began (by decide))
  have e2 := e1.snoc (now := 100) (by decide) (.asked (i := 0) (old := 0) rfl)
  have e3 := e2.snoc (now := 101) (by decide) (.answered (i := 0) (since := 100) (τ := 101) rfl (by decide) (by decide))
  have e4 := e3.snoc (now := 101) (by decide) (.ranged (i := 0) (tks := [("a".toList, some 7)]) rfl)
  have e5 := e4.snoc (now := 101) (by decide) (.collected (i := 0) (tks := [("a".toList, some 7)]) (cur := []) rfl)
  have e6 := e5.snoc (now := 101) (by decide)
    (.stored (i := 0) (kid := "a".toList) (k := 7) (rest := []) (cur := []) rfl)
  have e7 := e6.snoc (now := 101) (by decide) (.kept (i := 0) (cur := []) rfl)
  exact e7.snoc (now := 101) (by decide) (.finished (i := 0) rfl)

/-- A second refresh, alone: it removes `a` and stores `b`. -/
def rotateEvents : List (Int × UaaAct Nat) :=
  aloneEvents ++ [(200, .began 1), (200, .asked 1), (201, .answered 1 201), (201, .ranged 1),
    (201, .visited 1 "a".toList), (201, .collected 1), (201, .stored 1 "b".toList 8), (201, .kept 1),
    (202, .deleted 1 "a".toList), (202, .finished 1), (203, .used "b".toList 8)]

theorem rotateRun : UaaRun 30 exPublished rotateEvents 203
    { keys := [("b".toList, 8)], lastQuery := 200, calls := [.ended true, .ended true] } := by
  have e1 := aloneRun.snoc (now := 200) (by decide) (.began (by decide))
  have e2 := e1.snoc (now := 200) (by decide) (.asked (i := 1) (old := 100) rfl)
  have e3 := e2.snoc (now := 201) (by decide) (.answered (i := 1) (since := 200) (τ := 201) rfl (by decide) (by decide))
  have e4 := e3.snoc (now := 201) (by decide) (.ranged (i := 1) (tks := [("b".toList, some 8)]) rfl)
  have e5 := e4.snoc (now := 201) (by decide)
    (.visited (i := 1) (tks := [("b".toList, some 8)]) (todo := ["a".toList]) (cur := []) (kid := "a".toList) rfl
      (by decide))
  have e6 := e5.snoc (now := 201) (by decide)
    (.collected (i := 1) (tks := [("b".toList, some 8)]) (cur := ["a".toList]) rfl)
  have e7 := e6.snoc (now := 201) (by decide)
    (.stored (i := 1) (kid := "b".toList) (k := 8) (rest := []) (cur := ["a".toList]) rfl)
  have e8 := e7.snoc (now := 201) (by decide) (.kept (i := 1) (cur := ["a".toList]) rfl)
  have e9 := e8.snoc (now := 202) (by decide) (.deleted (i := 1) (kid := "a".toList) (cur := ["a".toList]) rfl (by decide))
  have e10 := e9.snoc (now := 202) (by decide) (.finished (i := 1) rfl)
  exact e10.snoc (now := 203) (by decide) (.used (kid := "b".toList) (k := 8) (by decide))

/-- Two refreshes that were let through together; the older answer arrives last. -/
def raceEvents : List (Int × UaaAct Nat) :=
  [(100, .began 0), (100, .began 1), (100, .asked 0), (103, .asked 1), (103, .answered 1 103), (103, .ranged 1),
   (103, .collected 1), (103, .stored 1 "b".toList 8), (103, .kept 1), (103, .finished 1),
   (104, .answered 0 101), (104, .ranged 0), (104, .visited 0 "b".toList), (104, .collected 0),
   (104, .stored 0 "a".toList 7), (104, .kept 0), (104, .deleted 0 "b".toList), (104, .finished 0)]

theorem raceRun : UaaRun 30 exPublished raceEvents 104
    { keys := [("a".toList, 7)], lastQuery := 100, calls := [.ended true, .ended true] } := by
  have e0 : UaaRun 30 exPublished [] 0 ({} : UaaConc Nat) := .nil
  have e1 := e0.snoc (now := 100) (by decide) (.began (by decide))
  have e2 := e1.snoc (now := 100) (by decide) (.began (by decide))
  have e3 := e2.snoc (now := 100) (by decide) (.asked (i := 0) (old := 0) rfl)
  have e4 := e3.snoc (now := 103) (by decide) (.asked (i := 1) (old := 0) rfl)
  have e5 := e4.snoc (now := 103) (by decide) (.answered (i := 1) (since := 103) (τ := 103) rfl (by decide) (by decide))
  have e6 := e5.snoc (now := 103) (by decide) (.ranged (i := 1) (tks := [("b".toList, some 8)]) rfl)
  have e7 := e6.snoc (now := 103) (by decide) (.collected (i := 1) (tks := [("b".toList, some 8)]) (cur := []) rfl)
  have e8 := e7.snoc (now := 103) (by decide)
    (.stored (i := 1) (kid := "b".toList) (k := 8) (rest := []) (cur := []) rfl)
  have e9 := e8.snoc (now := 103) (by decide) (.kept (i := 1) (cur := []) rfl)
  have e10 := e9.snoc (now := 103) (by decide) (.finished (i := 1) rfl)
  have e11 := e10.snoc (now := 104) (by decide) (.answered (i := 0) (since := 100) (τ := 101) rfl (by decide) (by decide))
  have e12 := e11.snoc (now := 104) (by decide) (.ranged (i := 0) (tks := [("a".toList, some 7)]) rfl)
  have e13 := e12.snoc (now := 104) (by decide)
    (.visited (i := 0) (tks := [("a".toList, some 7)]) (todo := ["b".toList]) (cur := []) (kid := "b".toList) rfl
      (by decide))
  have e14 := e13.snoc (now := 104) (by decide)
    (.collected (i := 0) (tks := [("a".toList, some 7)]) (cur := ["b".toList]) rfl)
  have e15 := e14.snoc (now := 104) (by decide)
    (.stored (i := 0) (kid := "a".toList) (k := 7) (rest := []) (cur := ["b".toList]) rfl)
  have e16 := e15.snoc (now := 104) (by decide) (.kept (i := 0) (cur := ["b".toList]) rfl)
  have e17 := e16.snoc (now := 104) (by decide)
    (.deleted (i := 0) (kid := "b".toList) (cur := ["b".toList]) rfl (by decide))
  exact e17.snoc (now := 104) (by decide) (.finished (i := 0) rfl)

/-- Two overlapping refreshes: a refresh that asked after the key was withdrawn has ended,
and yet the key is used, because the older answer of the other refresh was stored last. -/
theorem C123_race_false : ∃ (published : Int → List (Str × Option Nat)) (evs : List (Int × UaaAct Nat)) (clock : Int)
    (s : UaaConc Nat), UaaRun 30 published evs clock s ∧ ¬ RefreshTakesEffect published evs := by
  have e := raceRun.snoc (now := 110) (by decide) (.used (kid := "a".toList) (k := 7) (by decide))
  refine ⟨_, _, _, _, e, fun h => ?_⟩
  obtain ⟨τ, h1, -, h3⟩ := h raceEvents [] 110 "a".toList 7 1 103 103 rfl (by simp [raceEvents]) (by simp [raceEvents])
  unfold exPublished at h3
  rw [if_neg (by omega)] at h3
  revert h3
  decide

/-- The same history makes the client forget a key that UAA publishes, although a refresh
has stored it. -/
theorem C123_lost_false : ∃ (published : Int → List (Str × Option Nat)) (evs : List (Int × UaaAct Nat)) (clock : Int)
    (s : UaaConc Nat), UaaRun 30 published evs clock s ∧ (103, UaaAct.asked 1) ∈ evs ∧
      (103, UaaAct.finished 1) ∈ evs ∧ (∀ τ, 103 ≤ τ → ("b".toList, some 8) ∈ published τ) ∧
      s.keys.lookup "b".toList = none := by
  refine ⟨_, _, _, _, raceRun, by simp [raceEvents], by simp [raceEvents], fun τ h => ?_, by decide⟩
  unfold exPublished
  rw [if_neg (by omega)]
  exact List.mem_singleton.2 rfl

/-- Keys are refreshed at the start, for unknown ids and for bad signatures, and never
because time has passed: a withdrawn key is used for ever. -/
theorem C123_forever_false : ∀ d : Int, ∃ (published : Int → List (Str × Option Nat))
    (evs : List (Int × UaaAct Nat)) (clock : Int) (s : UaaConc Nat),
      UaaRun 30 published evs clock s ∧ ¬ KeysAtMostOld published d evs := by
  intro d
  have e := aloneRun.snoc (now := 103 + d.toNat) (by omega) (.used (kid := "a".toList) (k := 7) (by decide))
  refine ⟨_, _, _, _, e, fun h => ?_⟩
  obtain ⟨τ, h1, -, h3⟩ := h (103 + d.toNat) "a".toList 7 (List.mem_append_right _ (List.mem_singleton.2 rfl))
  unfold exPublished at h3
  rw [if_neg (by omega)] at h3
  revert h3
  decide

/-- The hypotheses of `C123_withdrawn_partial` and its conclusion on the rotation of keys. -/
example : PublishedIn exPublished "b".toList 8 200 203 := by
  refine C123_withdrawn_partial 30 exPublished
    (aloneEvents ++ [(200, UaaAct.began 1), (200, UaaAct.asked 1), (201, UaaAct.answered 1 201)])
    [(201, .visited 1 "a".toList), (201, .collected 1), (201, .stored 1 "b".toList 8), (201, .kept 1),
      (202, .deleted 1 "a".toList), (202, .finished 1)]
    201 202 200 203 203 1 "b".toList 8
    { keys := [("b".toList, 8)], lastQuery := 200, calls := [.ended true, .ended true] }
    (by have r := rotateRun; unfold rotateEvents at r; simpa using r) ?_ (by simp)
  intro t j kid k hm ta ha
  simp at hm
  obtain ⟨-, rfl, -, -⟩ := hm
  simp [aloneEvents] at ha
  omega

/-- The hypotheses of `C123_undisturbed_partial` on the rotation of keys. -/
example : ∃ t τ, (t, UaaAct.answered 1 τ) ∈
      aloneEvents ++ [(200, UaaAct.began 1), (200, UaaAct.asked 1), (201, UaaAct.answered 1 201)] ∧ τ ≤ t ∧
    ∀ kid, List.lookup kid [("b".toList, 8)] = ((exPublished τ).reverse.lookup kid).join := by
  refine C123_undisturbed_partial 30 exPublished
    (aloneEvents ++ [(200, UaaAct.began 1), (200, UaaAct.asked 1), (201, UaaAct.answered 1 201)])
    [(201, .visited 1 "a".toList), (201, .collected 1), (201, .stored 1 "b".toList 8), (201, .kept 1),
      (202, .deleted 1 "a".toList), (202, .finished 1), (203, .used "b".toList 8)]
    201 202 203 1
    { keys := [("b".toList, 8)], lastQuery := 200, calls := [.ended true, .ended true] }
    (by have r := rotateRun; unfold rotateEvents at r; simpa using r) ?_ ?_ (by simp)
  · intro t j kid k hm
    simp at hm
    exact hm.2.1
  · intro t j kid hm
    simp at hm
    exact hm.2.1

/-! ## C124 -/

theorem rightsRun_prefix {interval : Int} {rights : Str → Int → List Str} {evs : List (Int × RightsAct)}
    {clock : Int} {s : RightsState} (h : RightsRun interval rights evs clock s) : ∀ pre post, evs = pre ++ post →
      ∃ c0 s0, RightsRun interval rights pre c0 s0 ∧ c0 ≤ clock := by
  induction h with
  | nil =>
    intro pre post he
    obtain ⟨rfl, rfl⟩ := List.append_eq_nil_iff.1 he.symm
    exact ⟨0, {}, .nil, Int.le_refl _⟩
  | @snoc evs clock s now act s' hr hc hm ih =>
    intro pre post he
    rcases List.eq_nil_or_concat post with rfl | ⟨post', x, rfl⟩
    · rw [List.append_nil] at he
      subst he
      exact ⟨now, s', .snoc hr hc hm, Int.le_refl _⟩
    · rw [List.concat_eq_append, ← List.append_assoc] at he
      obtain ⟨h1, -⟩ := List.append_inj' he rfl
      obtain ⟨c0, s0, h2, h3⟩ := ih pre post' h1
      exact ⟨c0, s0, h2, by omega⟩

/-- Part of `RightsAtMostOld`: when CAPI answers every call within `lat`, nobody is let
through later than the cache interval and `lat` after the right was withdrawn, however
many requests overlap. Missing: the bound of the cache interval alone, see
`C124_slow_false`. -/
theorem C124_bound_partial (interval lat : Int) (hi : 0 < interval) (rights : Str → Int → List Str)
    (evs : List (Int × RightsAct)) (clock : Int) (s : RightsState) (h : RightsRun interval rights evs clock s)
    (hlat : ∀ t c ids b, (t, RightsAct.fetched c ids b) ∈ evs → t - c.since ≤ lat) :
    RightsAtMostOld rights (interval + lat) evs := by
  intro now act tok sid hmem hadm
  obtain ⟨pre, post, rfl⟩ := List.append_of_mem hmem
  obtain ⟨c0, s0, h1, -⟩ := rightsRun_prefix h (pre ++ [(now, act)]) post (by simp)
  obtain ⟨c1, s1, h2, h3, h4, -⟩ := rightsRun_last h1
  rcases hadm with rfl | ⟨c, ids, rfl, rfl, rfl⟩
  · cases h4 with
    | answered hl =>
      unfold authLoad at hl
      split at hl
      · cases hl
      · rename_i e he
        split at hl
        · rename_i hlt
          split at hl
          · rename_i hin
            obtain ⟨t, c, b, g1, g2, g3, g4, g5⟩ := rights_inv h2 tok e he
            obtain ⟨τ, g6, g7, g8⟩ := g5 sid hin
            have := hlat t c e.ids b (List.mem_append_left _ g1)
            exact ⟨τ, by omega, by omega, g8⟩
          · split at hl <;> cases hl
        · cases hl
  · generalize hb : true = b at h4
    cases h4 with
    | fetched hw hids =>
      obtain ⟨τ, g6, g7, g8⟩ := hids c.sid (of_decide_eq_true hb.symm)
      have := hlat now c ids _ hmem
      exact ⟨τ, by omega, by omega, g8⟩

/-- The answer to a request that was sent on to CAPI counts only what was granted since that
request came in. -/
theorem C124_asked (interval : Int) (rights : Str → Int → List Str) (evs : List (Int × RightsAct)) (clock : Int)
    (s : RightsState) (h : RightsRun interval rights evs clock s) (now : Int) (c : RightsCall) (ids : List Str)
    (hmem : (now, RightsAct.fetched c ids true) ∈ evs) : GrantedIn rights c.token c.sid (c.since - 1) now := by
  obtain ⟨pre, post, rfl⟩ := List.append_of_mem hmem
  obtain ⟨c0, s0, h1, -⟩ := rightsRun_prefix h (pre ++ [(now, .fetched c ids true)]) post (by simp)
  obtain ⟨c1, s1, h2, h3, h4, -⟩ := rightsRun_last h1
  generalize hb : true = b at h4
  cases h4 with
  | fetched hw hids =>
    obtain ⟨τ, g6, g7, g8⟩ := hids c.sid (of_decide_eq_true hb.symm)
    exact ⟨τ, by omega, by omega, g8⟩

/-- The user may read `x` until 1. -/
def exRights (_ : Str) (τ : Int) : List Str := if τ ≤ 1 then ["x".toList] else []

/-- However long `d` is: when CAPI's answer takes `d`, a user is let through `d` after the
right was withdrawn. -/
theorem C124_slow_false : ∀ d : Int, ∃ (rights : Str → Int → List Str) (evs : List (Int × RightsAct)) (clock : Int)
    (s : RightsState), RightsRun 60 rights evs clock s ∧ ¬ RightsAtMostOld rights d evs := by
  intro d
  have e0 : RightsRun 60 exRights [] 0 {} := .nil
  have e1 := e0.snoc (now := 0) (by decide) (.asked (sid := "x".toList) (token := "t".toList) (r := 0) rfl)
  have e2 := e1.snoc (now := 2 + d.toNat) (by omega)
    (.fetched (c := ⟨"x".toList, "t".toList, 0, 0⟩) (ids := ["x".toList]) List.mem_cons_self (fun x hx =>
      ⟨0, by decide, by omega, by rw [List.mem_singleton.1 hx]; decide⟩))
  refine ⟨_, _, _, _, e2, fun h => ?_⟩
  obtain ⟨τ, h1, h2, h3⟩ := h (2 + d.toNat) _ "t".toList "x".toList (List.mem_append_right _ (List.mem_singleton.2 rfl))
    (Or.inr ⟨⟨"x".toList, "t".toList, 0, 0⟩, ["x".toList], rfl, rfl, rfl⟩)
  unfold exRights at h3
  rw [if_neg (by omega)] at h3
  cases h3

/-- A request is refused after the right was withdrawn, and then a later one is let through
from the cache: the older list was stored last. -/
theorem C124_overtaken_false : ∃ (rights : Str → Int → List Str) (evs : List (Int × RightsAct)) (clock : Int)
    (s : RightsState), RightsRun 60 rights evs clock s ∧ ¬ RefusalStands rights evs := by
  have e0 : RightsRun 60 exRights [] 0 {} := .nil
  have e1 := e0.snoc (now := 0) (by decide) (.asked (sid := "x".toList) (token := "t".toList) (r := 0) rfl)
  have e2 := e1.snoc (now := 3) (by decide) (.asked (sid := "x".toList) (token := "t".toList) (r := 0) rfl)
  have e3 := e2.snoc (now := 4) (by decide)
    (.fetched (c := ⟨"x".toList, "t".toList, 0, 3⟩) (ids := []) List.mem_cons_self (fun x hx => by cases hx))
  have e4 := e3.snoc (now := 5) (by decide)
    (.fetched (c := ⟨"x".toList, "t".toList, 0, 0⟩) (ids := ["x".toList]) (by decide) (fun x hx =>
      ⟨0, by decide, by decide, by rw [List.mem_singleton.1 hx]; decide⟩))
  have e5 := e4.snoc (now := 6) (by decide) (.answered (sid := "x".toList) (token := "t".toList) (b := true) rfl)
  refine ⟨_, _, _, _, e5, fun h => ?_⟩
  obtain ⟨τ, h1, h2, h3⟩ := h [(0, .asked ⟨"x".toList, "t".toList, 0, 0⟩), (3, .asked ⟨"x".toList, "t".toList, 0, 3⟩)]
    [(5, .fetched ⟨"x".toList, "t".toList, 0, 0⟩ ["x".toList] true)] [] 4 ⟨"x".toList, "t".toList, 0, 3⟩ [] 6
    (.answered "x".toList "t".toList true) "t".toList "x".toList rfl rfl rfl (Or.inl rfl)
  unfold exRights at h3
  rw [if_neg (by simp only [] at h1; omega)] at h3
  cases h3

/-- A history with a request that is answered by CAPI and one that is answered from the
cache, within the bound of `C124_bound_partial`. -/
example : ∃ evs clock s, RightsRun 60 exRights evs clock s ∧
    (∀ t c ids b, (t, RightsAct.fetched c ids b) ∈ evs → t - c.since ≤ 5) ∧
    (50, RightsAct.answered "x".toList "t".toList true) ∈ evs := by
  have e0 : RightsRun 60 exRights [] 0 {} := .nil
  have e1 := e0.snoc (now := 0) (by decide) (.asked (sid := "x".toList) (token := "t".toList) (r := 0) rfl)
  have e2 := e1.snoc (now := 4) (by omega)
    (.fetched (c := ⟨"x".toList, "t".toList, 0, 0⟩) (ids := ["x".toList]) List.mem_cons_self (fun x hx =>
      ⟨0, by decide, by omega, by rw [List.mem_singleton.1 hx]; decide⟩))
  have e3 := e2.snoc (now := 50) (by decide) (.answered (sid := "x".toList) (token := "t".toList) (b := true) rfl)
  refine ⟨_, _, _, e3, ?_, List.mem_append_right _ (List.mem_singleton.2 rfl)⟩
  intro t c ids b hm
  simp at hm
  obtain ⟨rfl, rfl, -, -⟩ := hm
  decide

end LogCache
