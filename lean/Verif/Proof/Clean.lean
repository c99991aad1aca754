import Verif.Proof.Witness
/-! # Histories without overwrites, and histories in timestamp order -/
namespace LogCache
open Spec

theorem nodup_length_le {α : Type} [DecidableEq α] {l l' : List α} (hn : l.Nodup) (hs : ∀ x ∈ l, x ∈ l') :
    l.length ≤ l'.length := by
  induction l generalizing l' with
  | nil => simp
  | cons a t ih =>
    have h := List.nodup_cons.1 hn
    have ha := hs a (by simp)
    have := ih (l' := l'.erase a) h.2 (fun x hx => by
      have hxa : x ≠ a := fun he => h.1 (he ▸ hx)
      exact (List.mem_erase_of_ne hxa).2 (hs x (by simp [hx])))
    rw [List.length_erase_of_mem ha] at this
    have h0 : 0 < l'.length := List.length_pos_of_mem ha
    simp; omega

theorem insertKV_perm_or {L : List (Int × Envelope)} (key : Int) (e : Envelope) :
    ∃ rest, (insertKV key e L ++ rest).Perm ((key, e) :: L) := by
  induction L with
  | nil => exact ⟨[], List.Perm.refl _⟩
  | cons p t ih =>
    obtain ⟨k, v⟩ := p
    simp only [insertKV]
    split
    · exact ⟨[], by simp⟩
    · split
      · refine ⟨[(k, v)], ?_⟩
        simp only [List.cons_append]
        exact (List.perm_append_singleton _ _).cons _
      · obtain ⟨rest, hr⟩ := ih
        refine ⟨rest, ?_⟩
        rw [List.cons_append]
        exact (hr.cons _).trans (List.Perm.swap _ _ _)

theorem makeRoom_perm (max : Int) (L : List (Int × Envelope)) :
    ∃ rest, (makeRoom max L ++ rest).Perm L := by
  unfold makeRoom; split
  · cases L with
    | nil => exact ⟨[], by simp⟩
    | cons x t => exact ⟨[x], by simp only [List.tail_cons]; exact List.perm_append_singleton _ _⟩
  · exact ⟨[], by simp⟩

/-- The stored envelopes are among the ones put, counted with multiplicity. -/
theorem stored_sub_put {cfg : Config} (hc : 1 ≤ cfg.maxPerSource) {ops : List Op} {st : Store}
    (h : Run (newStore cfg) ops st) :
    ∀ src, ∃ rest, (st.envelopes src ++ rest).Perm (putsOf ops src) := by
  refine run_induct hc (P := fun ops st => ∀ src, ∃ rest,
    (st.envelopes src ++ rest).Perm (putsOf ops src)) ?_ ?_ h
  · intro src; exact ⟨[], List.Perm.refl _⟩
  · intro ops st op st' hr hi hcfg ih hv hx src
    rw [putsOf_append]
    obtain ⟨rest, hrest⟩ := ih src
    cases op with
    | put now s e =>
      obtain ⟨f, hf⟩ := put_spec hi.idx hx
      rw [putsOf_put]
      by_cases hs : src = s
      · subst hs
        rw [if_pos rfl]
        obtain ⟨r1, h1⟩ := insertKV_perm_or (L := makeRoom st.cfg.maxPerSource (st.entries src))
          (e.timestamp + f) e
        obtain ⟨r2, h2⟩ := makeRoom_perm st.cfg.maxPerSource (st.entries src)
        refine ⟨r1.map Prod.snd ++ (r2.map Prod.snd ++ rest), ?_⟩
        have e1 := h1.map Prod.snd
        have e2 := h2.map Prod.snd
        rw [List.map_append, List.map_cons] at e1
        rw [List.map_append] at e2
        unfold Store.envelopes at hrest ⊢
        rw [hf.entries, ← List.append_assoc]
        refine (e1.append_right _).trans ?_
        rw [List.cons_append, ← List.append_assoc]
        refine List.Perm.trans ?_ (List.perm_append_singleton _ _).symm
        exact ((e2.append_right _).trans hrest).cons _
      · rw [if_neg (fun h => hs h.symm), List.append_nil]
        refine ⟨rest, ?_⟩
        unfold Store.envelopes at hrest ⊢
        rw [entries_other hf hs]; exact hrest
    | truncate now mc o =>
      obtain ⟨R, hR, -⟩ := (truncate_spec hi.idx hv hx).removed
      rw [putsOf_truncate, List.append_nil]
      refine ⟨(R src).map Prod.snd ++ rest, ?_⟩
      refine List.Perm.trans ?_ hrest
      unfold Store.envelopes
      rw [hR src, List.map_append, ← List.append_assoc]
      exact List.perm_append_comm.append_right _
    | get s a =>
      simp only [Op.exec, Option.some.injEq] at hx
      subst hx
      refine ⟨rest, ?_⟩
      unfold Store.envelopes
      rw [entries_getState, putsOf_get, List.append_nil]; exact hrest

theorem sparse_prefix {F : Nat} {l l' : List Envelope} (h : Sparse F (l ++ l')) : Sparse F l := by
  intro e he
  have := h e (by simp [he])
  rw [List.filter_append, List.length_append] at this
  omega

theorem not_overwrites_of_sparse {cfg : Config} (hc : 1 ≤ cfg.maxPerSource) {ops : List Op}
    {st : Store} (h : Run (newStore cfg) ops st) {src : Str} {e : Envelope}
    (hs : Sparse cfg.maxFudge (putsOf ops src ++ [e])) : ¬ overwrites cfg (st.entries src) e := by
  intro ho
  obtain ⟨hi, hcfg⟩ := run_inv hc h
  obtain ⟨rest, hrest⟩ := stored_sub_put hc h src
  let P : Envelope → Bool := fun x =>
    decide (e.timestamp - cfg.maxFudge ≤ x.timestamp ∧ x.timestamp ≤ e.timestamp + cfg.maxFudge)
  have h1 := hs e (by simp)
  have h2 : ((putsOf ops src).filter P).length ≤ cfg.maxFudge := by
    rw [List.filter_append, List.length_append] at h1
    have hPe : P e = true := by simp only [P, decide_eq_true_eq]; omega
    have : ([e].filter P).length = 1 := by simp [hPe]
    have h1' : ((putsOf ops src).filter P).length + ([e].filter P).length ≤ cfg.maxFudge + 1 := h1
    omega
  have h3 : ((st.envelopes src).filter P).length ≤ cfg.maxFudge := by
    have := (hrest.filter P).length_eq
    rw [List.filter_append, List.length_append] at this
    omega
  -- the occupied keys
  let K := (List.range (cfg.maxFudge + 1)).map fun (i : Nat) => e.timestamp + (i : Int)
  let M := (st.entries src).filter (fun x => P x.2)
  have hK : K.Nodup := by
    apply List.Pairwise.map (R := fun a b : Nat => a ≠ b) (S := fun a b : Int => a ≠ b)
      (f := fun i : Nat => e.timestamp + (i : Int))
    · intro a b hab; omega
    · exact List.nodup_range
  have hsub : ∀ k ∈ K, k ∈ M.map Prod.fst := by
    intro k hk
    obtain ⟨i, hi', rfl⟩ := List.mem_map.1 hk
    rw [List.mem_range] at hi'
    have := ho i (by omega)
    obtain ⟨x, hx, hxk⟩ := List.mem_map.1 this
    have hx' := mem_makeRoom hx
    have hnear : x.2.timestamp ≤ x.1 ∧ x.1 ≤ x.2.timestamp + cfg.maxFudge := by
      rw [entries_eq] at hx'
      unfold idxEntries at hx'
      cases hl : idxLoad st.index src with
      | none => rw [hl] at hx'; cases hx'
      | some s =>
        rw [hl] at hx'
        have := (idxOk_load hi.idx hl).near x hx'
        rw [hcfg] at this; exact this
    refine List.mem_map.2 ⟨x, List.mem_filter.2 ⟨hx', ?_⟩, hxk⟩
    simp only [P, decide_eq_true_eq]; omega
  have hle := nodup_length_le hK hsub
  have hM : M.length = ((st.envelopes src).filter P).length := by
    unfold Store.envelopes
    rw [List.filter_map, List.length_map]; rfl
  simp only [K, List.length_map, List.length_range] at hle
  omega

/-- In a sparse history nothing is ever overwritten. -/
theorem sparse_drift {cfg : Config} (hc : 1 ≤ cfg.maxPerSource) {ops : List Op} {st : Store}
    {gh : Ghost} (h : Hist cfg ops st gh) (hd : ∀ src, Sparse cfg.maxFudge (putsOf ops src)) :
    gh.drift = 0 ∧ ∀ src, gh.lost src = 0 := by
  induction h with
  | nil => exact ⟨rfl, fun _ => rfl⟩
  | @snoc ops st st' gh op hr hv hx ih =>
    have hpre : ∀ src, Sparse cfg.maxFudge (putsOf ops src) := by
      intro src; have := hd src; rw [putsOf_append] at this; exact sparse_prefix this
    obtain ⟨i1, i2⟩ := ih hpre
    obtain ⟨hi, hcfg⟩ := run_inv hc (hist_run hr)
    cases op with
    | put now src e =>
      have hs := hd src
      rw [putsOf_append, putsOf_put, if_pos rfl] at hs
      have := not_overwrites_of_sparse hc (hist_run hr) hs
      rw [← hcfg] at this
      simp only [Ghost.step, if_neg this, Nat.add_zero]
      refine ⟨i1, fun s => ?_⟩
      split <;> exact i2 s
    | truncate now mc o =>
      simp only [Ghost.step]
      refine ⟨i1, fun s => ?_⟩
      split
      · exact i2 s
      · rfl
    | get s a => exact ⟨i1, i2⟩

/-! ## in-order histories -/

/-- No gap between the largest timestamp and the largest key. -/
def GapFree (L : List (Int × Envelope)) : Prop :=
  ∀ k, (∀ x ∈ L, x.2.timestamp ≤ k) → (∃ x ∈ L, k ≤ x.1) → k ∈ keys L

theorem inorder_storage {cfg : Config} (hc : 1 ≤ cfg.maxPerSource) {ops : List Op} {st : Store}
    {gh : Ghost} (h : Hist cfg ops st gh) (hn : NoPrune ops) (src : Str)
    (hord : InOrder (putsOf ops src)) (hlen : ((putsOf ops src).length : Int) ≤ cfg.maxPerSource)
    (hl : gh.lost src = 0) :
    st.envelopes src = putsOf ops src ∧ GapFree (st.entries src) := by
  induction h with
  | nil =>
    refine ⟨rfl, ?_⟩
    rintro k - ⟨x, hx, -⟩; cases hx
  | @snoc ops st st' gh op hr hv hx ih =>
    have hn' : NoPrune ops := fun o ho => hn o (by simp [ho])
    rw [putsOf_append] at hord hlen
    have hord' : InOrder (putsOf ops src) := (List.pairwise_append.1 hord).1
    have hlen' : ((putsOf ops src).length : Int) ≤ cfg.maxPerSource := by
      rw [List.length_append] at hlen; omega
    obtain ⟨hi, hcfg⟩ := run_inv hc (hist_run hr)
    cases op with
    | put now s e =>
      obtain ⟨f, hf⟩ := put_spec hi.idx hx
      simp only [Ghost.step] at hl
      by_cases hs : src = s
      · subst hs
        rw [if_pos rfl] at hl
        have hl0 : gh.lost src = 0 := by omega
        have how : ¬ overwrites st.cfg (st.entries src) e := by
          intro ho; rw [if_pos ho] at hl; omega
        obtain ⟨ih1, ih2⟩ := ih hn' hord' hlen' hl0
        rw [putsOf_put, if_pos rfl] at hord hlen
        have hroom : makeRoom st.cfg.maxPerSource (st.entries src) = st.entries src := by
          unfold makeRoom
          have : (st.entries src).length = (putsOf ops src).length := by
            rw [← ih1]; simp [Store.envelopes]
          rw [List.length_append] at hlen
          simp at hlen
          rw [hcfg, if_neg (by omega)]
        have hfree : e.timestamp + f ∉ keys (st.entries src) := by
          intro hm; exact how ((overwrites_iff hf).2 (by rw [hroom]; exact hm))
        have hge : ∀ x ∈ st.entries src, x.2.timestamp ≤ e.timestamp := by
          intro x hx
          have : x.2 ∈ putsOf ops src := by
            rw [← ih1]; exact List.mem_map.2 ⟨x, hx, rfl⟩
          exact (List.pairwise_append.1 hord).2.2 x.2 this e (by simp)
        have hmax : ∀ x ∈ st.entries src, x.1 < e.timestamp + f := by
          intro x hx
          apply Classical.byContradiction
          intro hnot
          apply hfree
          apply ih2
          · intro y hy; have := hge y hy; omega
          · exact ⟨x, hx, by omega⟩
        have hE : st'.entries src = st.entries src ++ [(e.timestamp + f, e)] := by
          rw [hf.entries, hroom, insertKV_end hmax]
        constructor
        · rw [putsOf_append, putsOf_put, if_pos rfl, ← ih1]
          unfold Store.envelopes; rw [hE, List.map_append]; rfl
        · intro k hk1 hk2
          rw [hE] at hk1 hk2 ⊢
          unfold keys
          rw [List.map_append, List.mem_append]
          have hke := hk1 (e.timestamp + f, e) (by simp)
          simp only at hke
          by_cases hkey : k = e.timestamp + f
          · right; simp [hkey]
          · left
            have hk3 : k < e.timestamp + f := by
              obtain ⟨x, hx, hkx⟩ := hk2
              rcases List.mem_append.1 hx with hx | hx
              · have := hmax x hx; omega
              · simp at hx; subst hx; simp only at hkx; omega
            have := hf.taken (k - e.timestamp).toNat (by omega)
            rw [hroom] at this
            have e2 : e.timestamp + ((k - e.timestamp).toNat : Int) = k := by omega
            rw [e2] at this; exact this
      · rw [if_neg hs] at hl
        obtain ⟨ih1, ih2⟩ := ih hn' hord' hlen' hl
        rw [putsOf_append, putsOf_put, if_neg (fun h => hs h.symm), List.append_nil]
        rw [entries_other hf hs]
        refine ⟨?_, ih2⟩
        unfold Store.envelopes; rw [entries_other hf hs]; exact ih1
    | truncate now mc o =>
      have := hn _ (by simp : Op.truncate now mc o ∈ ops ++ [Op.truncate now mc o])
      cases this
    | get s a =>
      simp only [Op.exec, Option.some.injEq] at hx
      subst hx
      obtain ⟨ih1, ih2⟩ := ih hn' hord' hlen' hl
      rw [putsOf_append, putsOf_get, List.append_nil, entries_getState]
      refine ⟨?_, ih2⟩
      unfold Store.envelopes; rw [entries_getState]; exact ih1

end LogCache
