import Verif.Model.AuthConc
import Verif.Proof.Maps
import Mathlib.Tactic

/-! # Invariants of the clients of UAA and CAPI -/

namespace LogCache

theorem uaaRun_last {κ : Type} {m : Int} {published : Int → List (Str × Option κ)} {evs : List (Int × UaaAct κ)}
    {now c : Int} {a : UaaAct κ} {s : UaaConc κ} (h : UaaRun m published (evs ++ [(now, a)]) c s) :
    ∃ clock s0, UaaRun m published evs clock s0 ∧ clock ≤ now ∧ UaaMove m published now s0 a s ∧ c = now := by
  generalize hl : evs ++ [(now, a)] = l at h
  cases h with
  | nil => simp at hl
  | snoc hr hc hm =>
    obtain ⟨h1, h2⟩ := List.append_inj' hl rfl
    cases h1; cases h2
    exact ⟨_, _, hr, hc, hm, rfl⟩

/-- The token keys a call has still to go through. -/
def RefPhase.pending {κ : Type} : RefPhase κ → List (Str × Option κ)
  | .got tks => tks
  | .ranging tks _ _ => tks
  | .storing rest _ => rest
  | _ => []

/-- All keys and all pending keys were published. -/
def PubInv {κ : Type} (published : Int → List (Str × Option κ)) (clock : Int) (s : UaaConc κ) : Prop :=
  (∀ kid k, s.keys.lookup kid = some k → ∃ τ, τ ≤ clock ∧ (kid, some k) ∈ published τ) ∧
  ∀ (i : Nat) (ph : RefPhase κ), s.calls[i]? = some ph → ∀ p ∈ ph.pending, ∃ τ, τ ≤ clock ∧ p ∈ published τ

theorem set_calls {α : Type} {l : List α} {i j : Nat} {a b : α} (h : (l.set i a)[j]? = some b) :
    b = a ∨ l[j]? = some b := by
  rw [List.getElem?_set] at h
  split at h
  · split at h
    · left; exact (Option.some.inj h).symm
    · cases h
  · right; exact h

theorem pub_inv {κ : Type} {m : Int} {published : Int → List (Str × Option κ)} {evs : List (Int × UaaAct κ)}
    {clock : Int} {s : UaaConc κ} (h : UaaRun m published evs clock s) : PubInv published clock s := by
  induction h with
  | nil =>
    refine ⟨?_, ?_⟩
    · intro kid k h; cases h
    · intro i ph h; simp at h
  | @snoc evs clock s now act s' hr hc hm ih =>
    obtain ⟨ih1, ih2⟩ := ih
    have k1 : ∀ kid k, s.keys.lookup kid = some k → ∃ τ, τ ≤ now ∧ (kid, some k) ∈ published τ := by
      intro kid k h
      obtain ⟨τ, h1, h2⟩ := ih1 kid k h
      exact ⟨τ, by omega, h2⟩
    have k2 : ∀ (i : Nat) (ph : RefPhase κ), s.calls[i]? = some ph → ∀ p ∈ ph.pending, ∃ τ, τ ≤ now ∧ p ∈ published τ := by
      intro i ph h p hp
      obtain ⟨τ, h1, h2⟩ := ih2 i ph h p hp
      exact ⟨τ, by omega, h2⟩
    have upd : ∀ (i : Nat) (ph' : RefPhase κ), (∀ p ∈ ph'.pending, ∃ τ, τ ≤ now ∧ p ∈ published τ) →
        ∀ (j : Nat) (ph : RefPhase κ), (s.calls.set i ph')[j]? = some ph → ∀ p ∈ ph.pending, ∃ τ, τ ≤ now ∧ p ∈ published τ := by
      intro i ph' h j ph hj
      rcases set_calls hj with rfl | hj
      · exact h
      · exact k2 j ph hj
    cases hm with
    | began _ =>
      refine ⟨k1, fun i ph h => ?_⟩
      rw [List.getElem?_append] at h
      split at h
      · exact k2 i ph h
      · rw [List.getElem?_singleton] at h
        split at h
        · cases h; intro p hp; cases hp
        · cases h
    | asked _ => exact ⟨k1, upd _ _ (fun p hp => by cases hp)⟩
    | answered _ h1 h2 => exact ⟨k1, upd _ _ (fun p hp => ⟨_, h2, hp⟩)⟩
    | failed _ => exact ⟨k1, upd _ _ (fun p hp => by cases hp)⟩
    | ranged h => exact ⟨k1, upd _ _ (fun p hp => k2 _ _ h p hp)⟩
    | visited h _ => exact ⟨k1, upd _ _ (fun p hp => k2 _ _ h p hp)⟩
    | collected h => exact ⟨k1, upd _ _ (fun p hp => k2 _ _ h p hp)⟩
    | @stored i kid k rest cur h =>
      refine ⟨?_, upd _ _ (fun p hp => k2 _ _ h p (List.mem_cons_of_mem _ hp))⟩
      intro kid' k' hl
      rw [mapSet_lookup] at hl
      split at hl
      · rename_i he
        cases hl
        subst he
        exact k2 _ _ h _ (List.mem_cons_self)
      · exact k1 kid' k' hl
    | bad _ => exact ⟨k1, upd _ _ (fun p hp => by cases hp)⟩
    | kept _ => exact ⟨k1, upd _ _ (fun p hp => by cases hp)⟩
    | @deleted i kid cur h hk =>
      refine ⟨?_, upd _ _ (fun p hp => by cases hp)⟩
      intro kid' k' hl
      rw [lookup_filter_key _ (fun x => !decide (x = kid))] at hl
      split at hl
      · exact k1 kid' k' hl
      · cases hl
    | finished _ => exact ⟨k1, upd _ _ (fun p hp => by cases hp)⟩
    | used _ => exact ⟨k1, k2⟩

/-- Which call changes the keys. -/
def UaaAct.changes {κ : Type} : UaaAct κ → Option Nat
  | .stored i _ _ => some i
  | .deleted i _ => some i
  | _ => none

/-- How far an undisturbed call with the answer `tks` has got. -/
def RefOk {κ : Type} (tks : List (Str × Option κ)) (keys : List (Str × κ)) : RefPhase κ → Prop
  | .ranging t todo cur => t = tks ∧ ∀ kid, (keys.lookup kid).isSome → kid ∈ todo ∨ kid ∈ cur
  | .storing rest cur => ∃ pre, tks = pre ++ rest ∧ (∀ p ∈ pre, p.2.isSome) ∧
      (∀ kid x, pre.reverse.lookup kid = some x → keys.lookup kid = x ∧ kid ∉ cur) ∧
      ∀ kid, pre.reverse.lookup kid = none → (keys.lookup kid).isSome → kid ∈ cur
  | .deleting cur =>
      (∀ kid x, tks.reverse.lookup kid = some x → keys.lookup kid = x ∧ kid ∉ cur) ∧
      ∀ kid, tks.reverse.lookup kid = none → (keys.lookup kid).isSome → kid ∈ cur
  | .ended true => ∀ kid, keys.lookup kid = (tks.reverse.lookup kid).join
  | .ended false => True
  | _ => False

theorem refOk_move {κ : Type} {m now : Int} {published : Int → List (Str × Option κ)} {s s' : UaaConc κ}
    {act : UaaAct κ} (hm : UaaMove m published now s act s') {i : Nat} {tks : List (Str × Option κ)}
    (hch : act.changes = none ∨ act.changes = some i)
    (h : ∃ ph, s.calls[i]? = some ph ∧ RefOk tks s.keys ph) :
    ∃ ph, s'.calls[i]? = some ph ∧ RefOk tks s'.keys ph := by
  obtain ⟨ph, hph, hok⟩ := h
  have hlt : i < s.calls.length := by
    by_contra hge
    rw [List.getElem?_eq_none (by omega)] at hph
    cases hph
  -- a step of a call with another phase, or of call `i`
  have upd : ∀ (j : Nat) (old new : RefPhase κ), s.calls[j]? = some old →
      (j = i → ph = old → RefOk tks s.keys new) →
      ∃ ph, (s.calls.set j new)[i]? = some ph ∧ RefOk tks s.keys ph := by
    intro j old new hj hnew
    by_cases hji : j = i
    · subst hji
      rw [hph] at hj
      injection hj with hj
      exact ⟨new, by rw [List.getElem?_set_self hlt], hnew rfl hj⟩
    · exact ⟨ph, by rw [List.getElem?_set_ne hji]; exact hph, hok⟩
  cases hm with
  | began _ =>
    refine ⟨ph, ?_, hok⟩
    rw [List.getElem?_append_left hlt]; exact hph
  | asked hj => exact upd _ _ _ hj (fun _ e => by subst e; exact hok.elim)
  | answered hj _ _ => exact upd _ _ _ hj (fun _ e => by subst e; exact hok.elim)
  | failed hj => exact upd _ _ _ hj (fun _ e => by subst e; exact hok.elim)
  | ranged hj => exact upd _ _ _ hj (fun _ e => by subst e; exact hok.elim)
  | @visited j t todo cur kid hj hk =>
    refine upd _ _ _ hj (fun _ e => ?_)
    subst e
    obtain ⟨h1, h2⟩ := hok
    refine ⟨h1, fun kid' hs => ?_⟩
    by_cases he : kid' = kid
    · subst he
      right; rw [if_pos hs]; exact List.mem_cons_self
    · rcases h2 kid' hs with h | h
      · left; exact List.mem_filter.2 ⟨h, by simpa using he⟩
      · right; split
        · exact List.mem_cons_of_mem _ h
        · exact h
  | @collected j t cur hj =>
    refine upd _ _ _ hj (fun _ e => ?_)
    subst e
    obtain ⟨h1, h2⟩ := hok
    refine ⟨[], by rw [h1]; rfl, by simp, by simp, fun kid _ hs => ?_⟩
    rcases h2 kid hs with h | h
    · cases h
    · exact h
  | @stored j kid k rest cur hj =>
    rcases hch with hch | hch
    · cases hch
    injection hch with hji
    subst hji
    rw [hph] at hj
    injection hj with hj
    subst hj
    obtain ⟨pre, h1, h2, h3, h4⟩ := hok
    refine ⟨.storing rest (cur.filter fun x => !decide (x = kid)), by rw [List.getElem?_set_self hlt], pre ++ [(kid, some k)], by rw [h1]; simp, ?_, ?_, ?_⟩
    · intro p hp
      rcases List.mem_append.1 hp with hp | hp
      · exact h2 p hp
      · rw [List.mem_singleton.1 hp]; rfl
    · intro kid' x hl
      rw [List.reverse_append, List.reverse_singleton, List.singleton_append, List.lookup] at hl
      simp only [mapSet_lookup]
      by_cases he : kid' = kid
      · subst he
        simp only [beq_self_eq_true] at hl
        injection hl with hl
        refine ⟨by rw [if_pos rfl]; exact hl, ?_⟩
        intro hm
        have := (List.mem_filter.1 hm).2
        simp at this
      · rw [beq_false_of_ne he] at hl
        obtain ⟨e1, e2⟩ := h3 kid' x hl
        exact ⟨by rw [if_neg he]; exact e1, fun hm => e2 (List.mem_filter.1 hm).1⟩
    · intro kid' hl hs
      rw [List.reverse_append, List.reverse_singleton, List.singleton_append, List.lookup] at hl
      by_cases he : kid' = kid
      · subst he
        simp only [beq_self_eq_true] at hl
        cases hl
      · rw [beq_false_of_ne he] at hl
        simp only [mapSet_lookup, if_neg he] at hs
        exact List.mem_filter.2 ⟨h4 kid' hl hs, by simpa using he⟩
  | bad hj => exact upd _ _ _ hj (fun _ _ => trivial)
  | @kept j cur hj =>
    refine upd _ _ _ hj (fun _ e => ?_)
    subst e
    obtain ⟨pre, h1, -, h3, h4⟩ := hok
    rw [List.append_nil] at h1
    subst h1
    exact ⟨h3, h4⟩
  | @deleted j kid cur hj hk =>
    rcases hch with hch | hch
    · cases hch
    injection hch with hji
    subst hji
    rw [hph] at hj
    injection hj with hj
    subst hj
    obtain ⟨h3, h4⟩ := hok
    refine ⟨.deleting (cur.filter fun x => !decide (x = kid)), by rw [List.getElem?_set_self hlt], ?_, ?_⟩
    · intro kid' x hl
      obtain ⟨e1, e2⟩ := h3 kid' x hl
      have hne : kid' ≠ kid := by rintro rfl; exact e2 hk
      refine ⟨?_, fun hm => e2 (List.mem_filter.1 hm).1⟩
      simp only [lookup_filter_key _ (fun x => !decide (x = kid))]
      rw [if_pos (by simpa using hne)]
      exact e1
    · intro kid' hl hs
      simp only [lookup_filter_key _ (fun x => !decide (x = kid))] at hs
      by_cases he : kid' = kid
      · rw [if_neg (by simpa using he)] at hs; cases hs
      · rw [if_pos (by simpa using he)] at hs
        exact List.mem_filter.2 ⟨h4 kid' hl hs, by simpa using he⟩
  | @finished j hj =>
    refine upd _ _ _ hj (fun _ e => ?_)
    subst e
    obtain ⟨h3, h4⟩ := hok
    intro kid
    cases hl : tks.reverse.lookup kid with
    | none =>
      cases hk : s.keys.lookup kid with
      | none => rfl
      | some k => exact absurd (h4 kid hl (by rw [hk]; rfl)) (by simp)
    | some x => rw [(h3 kid x hl).1]; rfl
  | used _ => exact ⟨ph, hph, hok⟩

/-- The answer a call has got was published when it says. -/
theorem got_answered {κ : Type} {m : Int} {published : Int → List (Str × Option κ)} {evs : List (Int × UaaAct κ)}
    {clock : Int} {s : UaaConc κ} (h : UaaRun m published evs clock s) (i : Nat) (tks : List (Str × Option κ))
    (hg : s.calls[i]? = some (.got tks)) : ∃ t τ, (t, UaaAct.answered i τ) ∈ evs ∧ tks = published τ ∧ τ ≤ t := by
  induction h with
  | nil => simp at hg
  | @snoc evs clock s now act s' hr hc hm ih =>
    have old : s.calls[i]? = some (.got tks) →
        ∃ t τ, (t, UaaAct.answered i τ) ∈ evs ++ [(now, act)] ∧ tks = published τ ∧ τ ≤ t := by
      intro h
      obtain ⟨t, τ, h1, h2⟩ := ih h
      exact ⟨t, τ, List.mem_append_left _ h1, h2⟩
    have upd : ∀ j new, (∀ t, new ≠ RefPhase.got t) → (s.calls.set j new)[i]? = some (.got tks) →
        s.calls[i]? = some (.got tks) := by
      intro j new hn h
      rcases set_calls h with h | h
      · exact absurd h.symm (hn tks)
      · exact h
    cases hm with
    | began _ =>
      rw [List.getElem?_append] at hg
      split at hg
      · exact old hg
      · rw [List.getElem?_singleton] at hg
        split at hg <;> cases hg
    | @answered j since τ hj h1 h2 =>
      simp only [] at hg
      rw [List.getElem?_set] at hg
      split at hg
      · rename_i hji
        subst hji
        split at hg
        · injection hg with hg
          injection hg with hg
          exact ⟨now, τ, List.mem_append_right _ (by simp), hg.symm, h2⟩
        · cases hg
      · exact old hg
    | asked _ => exact old (upd _ _ (by simp) hg)
    | failed _ => exact old (upd _ _ (by simp) hg)
    | ranged _ => exact old (upd _ _ (by simp) hg)
    | visited _ _ => exact old (upd _ _ (by simp) hg)
    | collected _ => exact old (upd _ _ (by simp) hg)
    | stored _ => exact old (upd _ _ (by simp) hg)
    | bad _ => exact old (upd _ _ (by simp) hg)
    | kept _ => exact old (upd _ _ (by simp) hg)
    | deleted _ _ => exact old (upd _ _ (by simp) hg)
    | finished _ => exact old (upd _ _ (by simp) hg)
    | used _ => exact old hg

/-! ## Rights -/

theorem rightsRun_last {interval : Int} {rights : Str → Int → List Str} {evs : List (Int × RightsAct)}
    {now c : Int} {a : RightsAct} {s : RightsState} (h : RightsRun interval rights (evs ++ [(now, a)]) c s) :
    ∃ clock s0, RightsRun interval rights evs clock s0 ∧ clock ≤ now ∧ RightsMove interval rights now s0 a s ∧
      c = now := by
  generalize hl : evs ++ [(now, a)] = l at h
  cases h with
  | nil => simp at hl
  | snoc hr hc hm =>
    obtain ⟨h1, h2⟩ := List.append_inj' hl rfl
    cases h1; cases h2
    exact ⟨_, _, hr, hc, hm, rfl⟩

/-- Every cached list was fetched by a call, and its ids were granted since that call. -/
theorem rights_inv {interval : Int} {rights : Str → Int → List Str} {evs : List (Int × RightsAct)} {clock : Int}
    {s : RightsState} (h : RightsRun interval rights evs clock s) : ∀ tok e, s.cache.lookup tok = some e →
      ∃ t c b, (t, RightsAct.fetched c e.ids b) ∈ evs ∧ c.token = tok ∧ e.expires = t + interval ∧ t ≤ clock ∧
        ∀ x ∈ e.ids, ∃ τ, c.since ≤ τ ∧ τ ≤ t ∧ x ∈ rights tok τ := by
  induction h with
  | nil => intro tok e h; cases h
  | @snoc evs clock s now act s' hr hc hm ih =>
    have old : ∀ tok e, s.cache.lookup tok = some e →
      ∃ t c b, (t, RightsAct.fetched c e.ids b) ∈ evs ++ [(now, act)] ∧ c.token = tok ∧ e.expires = t + interval ∧
        t ≤ now ∧ ∀ x ∈ e.ids, ∃ τ, c.since ≤ τ ∧ τ ≤ t ∧ x ∈ rights tok τ := by
      intro tok e h
      obtain ⟨t, c, b, h1, h2, h3, h4, h5⟩ := ih tok e h
      exact ⟨t, c, b, List.mem_append_left _ h1, h2, h3, by omega, h5⟩
    cases hm with
    | answered _ => exact old
    | asked _ => exact old
    | sawExpired _ _ => exact old
    | @fetched c ids hw hi =>
      intro tok e h
      simp only [authStore] at h
      rw [mapSet_lookup] at h
      split at h
      · rename_i he
        injection h with h
        subst h
        subst he
        exact ⟨now, c, _, List.mem_append_right _ (List.mem_singleton.2 rfl), rfl, rfl, Int.le_refl _, hi⟩
      · exact old tok e h
    | @dropped token hd =>
      intro tok e h
      simp only [cacheDelete] at h
      rw [lookup_filter_key _ (fun k => !decide (k = token))] at h
      split at h
      · exact old tok e h
      · cases h

end LogCache
