import Verif.Proof.History
/-! # Many envelopes with one timestamp -/
namespace LogCache
open Spec

/-- The `i`-th envelope of a burst: all with timestamp 0, told apart by instance id. -/
def burstEnv (i : Nat) : Envelope := { timestamp := 0, instanceId := List.replicate i 'x' }

theorem burstEnv_inj {i j : Nat} (h : burstEnv i = burstEnv j) : i = j := by
  have := congrArg (fun e => e.instanceId.length) h
  simpa [burstEnv] using this

/-- `n` Puts with the same timestamp under one source. -/
def burstOps : Nat → List Op
  | 0 => []
  | n + 1 => burstOps n ++ [.put 0 [] (burstEnv n)]

def burstEntries (n : Nat) : List (Int × Envelope) :=
  (List.range n).map fun (i : Nat) => ((i : Int), burstEnv i)

theorem keys_burst (n : Nat) (k : Int) : k ∈ keys (burstEntries n) ↔ 0 ≤ k ∧ k < n := by
  unfold keys burstEntries
  simp only [List.map_map, List.mem_map, List.mem_range, Function.comp]
  constructor
  · rintro ⟨i, hi, rfl⟩; omega
  · rintro ⟨h0, h1⟩; exact ⟨k.toNat, by omega, by omega⟩

theorem insertKV_end {α : Type} {key : Int} {v : α} {L : List (Int × α)}
    (h : ∀ x ∈ L, x.1 < key) : insertKV key v L = L ++ [(key, v)] := by
  induction L with
  | nil => rfl
  | cons p t ih =>
    obtain ⟨k, w⟩ := p
    have := h (k, w) (by simp)
    simp only at this
    simp only [insertKV, List.cons_append]
    rw [if_neg (by omega), if_neg (by omega), ih (fun x hx => h x (by simp [hx]))]

theorem burstEntries_succ (n : Nat) :
    burstEntries (n + 1) = burstEntries n ++ [((n : Int), burstEnv n)] := by
  unfold burstEntries; rw [List.range_succ, List.map_append]; rfl

theorem length_burst (n : Nat) : (burstEntries n).length = n := by simp [burstEntries]

theorem burst_run (cfg : Config) (n : Nat) (hn : n ≤ cfg.maxFudge + 1)
    (hc : (n : Int) ≤ cfg.maxPerSource) (hc1 : 1 ≤ cfg.maxPerSource) :
    ∃ st, Run (newStore cfg) (burstOps n) st ∧ st.entries [] = burstEntries n := by
  induction n with
  | zero => exact ⟨_, Run.nil _, rfl⟩
  | succ n ih =>
    obtain ⟨st, hr, he⟩ := ih (by omega) (by omega)
    obtain ⟨hi, hcfg⟩ := run_inv hc1 hr
    obtain ⟨st', hst'⟩ := put_total hi.idx (by rw [hcfg]; exact hc1) 0 [] (burstEnv n)
    refine ⟨st', Run.snoc hr trivial hst', ?_⟩
    obtain ⟨f, hf⟩ := put_spec hi.idx hst'
    have hroom : makeRoom st.cfg.maxPerSource (st.entries []) = burstEntries n := by
      unfold makeRoom; rw [he, hcfg, length_burst, if_neg (by omega)]
    have hts : (burstEnv n).timestamp = 0 := rfl
    have hfn : f = n := by
      have h1 := hf.taken
      have h2 := hf.free
      have h3 := hf.fudge_le
      rw [hroom, hts] at h1 h2
      rw [hcfg] at h2 h3
      apply Classical.byContradiction; intro hne
      by_cases hlt : f < n
      · exact h2 (by omega) ((keys_burst n _).2 (by omega))
      · have := (keys_burst n _).1 (h1 n (by omega)); omega
    rw [hf.entries, hroom, hts, hfn, burstEntries_succ, insertKV_end]
    · simp
    · intro x hx
      have := (keys_burst n x.1).1 (List.mem_map.2 ⟨x, hx, rfl⟩)
      omega

theorem insertKV_mem_key {α : Type} {key : Int} {v : α} {L : List (Int × α)} (hs : Sorted L)
    {x : Int × α} (hx : x ∈ insertKV key v L) (hk : x.1 = key) : x = (key, v) := by
  induction L with
  | nil => simpa [insertKV] using hx
  | cons p t ih =>
    obtain ⟨k, w⟩ := p
    have hp := List.pairwise_cons.1 hs
    simp only [insertKV] at hx
    split at hx
    · rename_i hlt
      rcases List.mem_cons.1 hx with h | h
      · exact h
      · have := sorted_head_le hs x h; omega
    · split at hx
      · rename_i _ heq
        rcases List.mem_cons.1 hx with h | h
        · exact h
        · have := hp.1 x h; simp only at this; omega
      · rename_i _ hne
        rcases List.mem_cons.1 hx with h | h
        · subst h; exact absurd hk.symm hne
        · exact ih hp.2 h

/-- One Put more than there are keys destroys an envelope. -/
theorem burst_overflow (cfg : Config) (hc : (cfg.maxFudge : Int) + 2 ≤ cfg.maxPerSource) :
    ∃ st st', Run (newStore cfg) (burstOps (cfg.maxFudge + 1)) st ∧
      Run (newStore cfg) (burstOps (cfg.maxFudge + 2)) st' ∧
      put 0 st [] (burstEnv (cfg.maxFudge + 1)) = some st' ∧
      (st.entries []).length = cfg.maxFudge + 1 ∧
      burstEnv cfg.maxFudge ∈ st.envelopes [] ∧ burstEnv cfg.maxFudge ∉ st'.envelopes [] ∧
      st'.total = cfg.maxFudge + 1 ∧ st'.g.count = cfg.maxFudge + 2 := by
  have hc1 : 1 ≤ cfg.maxPerSource := by omega
  obtain ⟨st, hr, he⟩ := burst_run cfg (cfg.maxFudge + 1) (by omega) (by omega) hc1
  obtain ⟨hi, hcfg⟩ := run_inv hc1 hr
  obtain ⟨st', hst'⟩ := put_total hi.idx (by rw [hcfg]; exact hc1) 0 [] (burstEnv (cfg.maxFudge + 1))
  have hr' : Run (newStore cfg) (burstOps (cfg.maxFudge + 2)) st' := Run.snoc hr trivial hst'
  obtain ⟨f, hf⟩ := put_spec hi.idx hst'
  have hroom : makeRoom st.cfg.maxPerSource (st.entries []) = burstEntries (cfg.maxFudge + 1) := by
    unfold makeRoom; rw [he, hcfg, length_burst, if_neg (by omega)]
  have hts : ∀ n, (burstEnv n).timestamp = 0 := fun _ => rfl
  have hfn : f = cfg.maxFudge := by
    have h2 := hf.free
    have h3 := hf.fudge_le
    rw [hroom, hts] at h2
    rw [hcfg] at h2 h3
    apply Classical.byContradiction; intro hne
    exact h2 (by omega) ((keys_burst _ _).2 (by omega))
  have how : overwrites st.cfg (st.entries []) (burstEnv (cfg.maxFudge + 1)) := by
    rw [overwrites_iff hf, hroom, hts, hfn]
    exact (keys_burst _ _).2 (by omega)
  have hsort : Sorted (burstEntries (cfg.maxFudge + 1)) := by
    rw [← he]; exact idxEntries_sorted hi.idx []
  have hlast : ((cfg.maxFudge : Int), burstEnv cfg.maxFudge) ∈ burstEntries (cfg.maxFudge + 1) := by
    rw [burstEntries_succ]; simp
  obtain ⟨gh, hg⟩ := run_hist hr
  have hsingle : ∀ n (st : Store), Run (newStore cfg) (burstOps n) st →
      st.total = (st.entries []).length := by
    intro n st h
    have h1 := (run_inv hc1 h).1
    rw [total_eq]
    have hS : ∀ p ∈ st.index, p.1 ∈ [([] : Str)] := by
      intro p hp
      have hload := mem_idxLoad h1.idx.1 (src := p.1) (s := p.2) hp
      have hne := (idxOk_load h1.idx hload).nonempty
      cases hL : p.2.tree.toList with
      | nil => exact absurd hL hne
      | cons x t =>
        have hm := stored_was_put hc1 h p.1 x (by unfold Store.entries; rw [hload]; simp [hL])
        have : ∀ n s, s ≠ [] → putsOf (burstOps n) s = [] := by
          intro n s hs
          induction n with
          | zero => rfl
          | succ n ih => rw [burstOps, putsOf_append, ih, putsOf_put, if_neg (fun h => hs h.symm)]; rfl
        by_cases hp1 : p.1 = []
        · simp [hp1]
        · rw [this n p.1 hp1] at hm; cases hm
    have := sum_entries (S := [[]]) (by simp) h1.idx.1 hS
    rw [← this]; simp; rfl
  have hlen' : (st'.entries []).length = cfg.maxFudge + 1 := by
    rw [hf.entries, hroom, length_insertKV_old hsort, length_burst]
    rw [hts, hfn]; exact (keys_burst _ _).2 (by omega)
  refine ⟨st, st', hr, hr', hst', by rw [he, length_burst], ?_, ?_, ?_, ?_⟩
  · unfold Store.envelopes; rw [he]
    exact List.mem_map.2 ⟨_, hlast, rfl⟩
  · unfold Store.envelopes
    rw [hf.entries, hroom, hts, hfn]
    intro hm
    obtain ⟨x, hx, hxe⟩ := List.mem_map.1 hm
    rcases Tree.mem_insertKV hx with h | h
    · subst h; have := burstEnv_inj hxe; omega
    · -- an old entry with that envelope has the overwritten key
      unfold burstEntries at h
      obtain ⟨i, hi', rfl⟩ := List.mem_map.1 h
      have hie := burstEnv_inj hxe
      subst hie
      have := insertKV_mem_key hsort hx (by simp)
      have h3 := congrArg Prod.snd this
      have := burstEnv_inj h3
      omega
  · rw [hsingle _ _ hr', hlen']
  · have hd := hist_drift hc1 (Hist.snoc hg trivial (op := .put 0 [] (burstEnv (cfg.maxFudge + 1))) hst')
    rw [hsingle _ _ hr', hlen'] at hd
    simp only [Ghost.step, if_pos how] at hd
    have hd0 : gh.drift = 0 := by
      -- earlier Puts did not overwrite: count = number of puts
      have hcount := hist_drift hc1 hg
      have : ∀ n (st : Store), n ≤ cfg.maxFudge + 1 → Run (newStore cfg) (burstOps n) st → st.g.count ≤ n := by
        intro n
        induction n with
        | zero => intro st _ h; generalize hb : burstOps 0 = b at h; cases h with
          | nil => simp [newStore]
          | snoc a b c => simp [burstOps] at hb
        | succ n ih =>
          intro st hn h
          generalize hb : burstOps (n + 1) = b at h
          cases h with
          | nil => simp [burstOps] at hb
          | @snoc st1 _ ops op a hv hx =>
            rw [burstOps] at hb
            obtain ⟨h1, h2⟩ := List.append_inj' hb rfl
            subst h1
            simp at h2; subst h2
            have hb := ih st1 (by omega) a
            obtain ⟨f, hf⟩ := put_spec (run_inv hc1 a).1.idx hx
            obtain ⟨g', s', -, hins, hg⟩ := hf.index
            have h3 := hins.gcount
            rw [← hg] at h3
            simp only at h3
            split at h3 <;> omega
      have h4 := this _ st (Nat.le_refl _) hr
      rw [hsingle _ _ hr, he, length_burst] at hcount
      omega
    rw [hd0] at hd
    omega

end LogCache
