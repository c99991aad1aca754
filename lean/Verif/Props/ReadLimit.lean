import Verif.Proof.FreeKey
import Verif.Proof.Burst
import Verif.Props.Store
/-!
# How far a read goes beyond its limit (C05), eviction at small and large capacities (C08)
-/
namespace LogCache
open Spec

/-! ### C05 -/

/-- Entries stored under a key that is not their timestamp. -/
def movedCount (L : List (Int × Envelope)) : Nat :=
  (L.filter fun x => decide (x.1 ≠ x.2.timestamp)).length

theorem movedCount_append (L L' : List (Int × Envelope)) :
    movedCount (L ++ L') = movedCount L + movedCount L' := by
  simp [movedCount, List.filter_append]

/-- The nodes at which a traversal does not stop; `side` tells which child is looked at. -/
def memberCount (asc : Bool) : Tree Envelope → Nat
  | .nil => 0
  | .node l k v _ r =>
    (if isFudgeMember k v (if asc then r else l) then 1 else 0) + memberCount asc l + memberCount asc r

/-- 1 if the root is stored under another key than its timestamp. -/
def rootMoved : Tree Envelope → Nat
  | .nil => 0
  | .node _ k v _ _ => if k ≠ v.timestamp then 1 else 0

theorem member_le_roots (k : Int) (v : Envelope) (c : Tree Envelope) :
    (if isFudgeMember k v c then 1 else 0) ≤ (if k ≠ v.timestamp then 1 else 0) + rootMoved c := by
  unfold isFudgeMember
  by_cases h : v.timestamp = k
  · subst h
    cases c with
    | nil => simp [rootMoved]
    | node l k' v' b r =>
      by_cases h' : v'.timestamp = k'
      · simp [rootMoved, h']
      · have : ¬ k' = v'.timestamp := fun h => h' h.symm
        simp [rootMoved, h', this]
  · have : ¬ k = v.timestamp := fun h' => h h'.symm
    rw [if_pos (c := k ≠ v.timestamp) this]
    have hb : ∀ b : Bool, (if b = true then 1 else 0) ≤ 1 := by decide
    exact Nat.le_trans (hb _) (Nat.le_add_right 1 _)

theorem memberCount_le (asc : Bool) (t : Tree Envelope) :
    memberCount asc t + rootMoved t ≤ 2 * movedCount t.toList := by
  induction t with
  | nil => simp [memberCount, rootMoved]
  | node l k v b r ihl ihr =>
    have hroot : movedCount [(k, v)] = if k ≠ v.timestamp then 1 else 0 := by
      by_cases h : k = v.timestamp <;> simp [movedCount, h]
    have hl : (Tree.node l k v b r).toList = l.toList ++ ([(k, v)] ++ r.toList) := by
      simp [Tree.toList]
    rw [hl, movedCount_append, movedCount_append, hroot]
    simp only [memberCount, rootMoved]
    have hm := member_le_roots k v (if asc then r else l)
    cases asc
    · simp only [Bool.false_eq_true, if_false] at hm ⊢
      omega
    · simp only [if_true] at hm ⊢
      omega

theorem answer_single_le (a : GetArgs) (v : Envelope) (h1 : a.start ≤ v.timestamp) (h2 : v.timestamp < a.stop) :
    (a.answer [v]).length ≤ 1 := by
  rw [answer_single_in a h1 h2]
  refine Nat.le_trans (List.length_filter_le _ _) ?_
  cases project a.nameFilter v <;> simp

theorem asc_overshoot (a : GetArgs) (t : Tree Envelope) (res res' : List Envelope) (d : Bool) (c : Nat)
    (hlim : (res.length : Int) ≤ a.limit - 1 + c)
    (h : ascTraverse a.start a.stop (getCallback a) t (some res) = (some res', d)) :
    (res'.length : Int) ≤ a.limit - 1 + c + memberCount true t + (if d then 1 else 0) := by
  induction t generalizing res res' d c with
  | nil => simp [ascTraverse] at h; obtain ⟨rfl, rfl⟩ := h; simp [memberCount]; omega
  | node l k v b r ihl ihr =>
    simp only [ascTraverse] at h
    simp only [memberCount, if_true]
    split at h
    · rename_i hge
      split at h
      · rename_i s heq
        cases h
        have := ihl _ _ _ c hlim heq
        simp only [if_true] at this ⊢
        split <;> push_cast <;> omega
      · rename_i s heq
        cases s with
        | none =>
          exfalso
          have hi : (if v.timestamp ≥ a.stop then ((none : Option (List Envelope)), true)
            else getCallback a none v) = (none, true) := by split <;> rfl
          rw [hi] at h
          split at h
          · cases h
          · have := asc_none a r; rw [h] at this; cases this
        | some r1 =>
          have hl1 := ihl _ _ _ c hlim heq
          simp only [Bool.false_eq_true, if_false] at hl1
          by_cases hstop : v.timestamp ≥ a.stop
          · rw [if_pos hstop] at h
            split at h
            · cases h
              split <;> simp <;> omega
            · have := ihr _ _ _ (c + memberCount true l) (by push_cast; omega) h
              push_cast at this
              split <;> push_cast <;> omega
          · rw [if_neg hstop] at h
            rcases callback_step a r1 v hge (by omega) with hc | ⟨hc1, -, hc3⟩
            · rw [hc] at h
              split at h
              · cases h
              · have := asc_none a r; rw [h] at this; cases this
            · rw [hc1] at h
              have hle := answer_single_le a v hge (by omega)
              have hlen : (r1 ++ a.answer [v]).length = r1.length + (a.answer [v]).length := by simp
              split at h
              · cases h
                rw [hlen]
                split <;> simp <;> omega
              · rename_i hcond
                by_cases hmem : isFudgeMember k v r = true
                · rw [if_pos hmem]
                  have := ihr _ _ _ (c + memberCount true l + 1) (by rw [hlen]; push_cast; omega) h
                  push_cast at this ⊢
                  omega
                · have hf : (getCallback a (some r1) v).2 = false := by
                    simp only [Bool.not_eq_true] at hmem
                    simpa [hmem] using hcond
                  rw [if_neg hmem]
                  have hnew : ((r1 ++ a.answer [v]).length : Int) ≤ a.limit - 1 + (c + memberCount true l : Nat) := by
                    by_cases hx : a.limit ≤ ((r1 ++ a.answer [v]).length : Int)
                    · rw [hc3 hf hx]; simp; omega
                    · push_cast; omega
                  have := ihr _ _ _ (c + memberCount true l) hnew h
                  push_cast at this ⊢
                  omega
    · have := ihr _ _ _ c hlim h
      split <;> push_cast <;> omega

theorem desc_overshoot (a : GetArgs) (t : Tree Envelope) (res res' : List Envelope) (d : Bool) (c : Nat)
    (hlim : (res.length : Int) ≤ a.limit - 1 + c)
    (h : descTraverse a.start a.stop (getCallback a) t (some res) = (some res', d)) :
    (res'.length : Int) ≤ a.limit - 1 + c + memberCount false t + (if d then 1 else 0) := by
  induction t generalizing res res' d c with
  | nil => simp [descTraverse] at h; obtain ⟨rfl, rfl⟩ := h; simp [memberCount]; omega
  | node l k v b r ihl ihr =>
    simp only [descTraverse] at h
    simp only [memberCount, Bool.false_eq_true, if_false]
    split at h
    · rename_i hge
      split at h
      · rename_i s heq
        cases h
        have := ihr _ _ _ c hlim heq
        simp only [if_true] at this ⊢
        split <;> push_cast <;> omega
      · rename_i s heq
        cases s with
        | none =>
          exfalso
          have hi : (if v.timestamp < a.start then ((none : Option (List Envelope)), true)
            else getCallback a none v) = (none, true) := by split <;> rfl
          rw [hi] at h
          split at h
          · cases h
          · have := desc_none a l; rw [h] at this; cases this
        | some r1 =>
          have hl1 := ihr _ _ _ c hlim heq
          simp only [Bool.false_eq_true, if_false] at hl1
          by_cases hstop : v.timestamp < a.start
          · rw [if_pos hstop] at h
            split at h
            · cases h
              split <;> simp <;> omega
            · have := ihl _ _ _ (c + memberCount false r) (by push_cast; omega) h
              push_cast at this
              split <;> push_cast <;> omega
          · rw [if_neg hstop] at h
            rcases callback_step a r1 v (by omega) hge with hc | ⟨hc1, -, hc3⟩
            · rw [hc] at h
              split at h
              · cases h
              · have := desc_none a l; rw [h] at this; cases this
            · rw [hc1] at h
              have hle := answer_single_le a v (by omega) hge
              have hlen : (r1 ++ a.answer [v]).length = r1.length + (a.answer [v]).length := by simp
              split at h
              · cases h
                rw [hlen]
                split <;> simp <;> omega
              · rename_i hcond
                by_cases hmem : isFudgeMember k v l = true
                · rw [if_pos hmem]
                  have := ihl _ _ _ (c + memberCount false r + 1) (by rw [hlen]; push_cast; omega) h
                  push_cast at this ⊢
                  omega
                · have hf : (getCallback a (some r1) v).2 = false := by
                    simp only [Bool.not_eq_true] at hmem
                    simpa [hmem] using hcond
                  rw [if_neg hmem]
                  have hnew : ((r1 ++ a.answer [v]).length : Int) ≤ a.limit - 1 + (c + memberCount false r : Nat) := by
                    by_cases hx : a.limit ≤ ((r1 ++ a.answer [v]).length : Int)
                    · rw [hc3 hf hx]; simp; omega
                    · push_cast; omega
                  have := ihl _ _ _ (c + memberCount false r) hnew h
                  push_cast at this ⊢
                  omega
    · have := ihl _ _ _ c hlim h
      split <;> push_cast <;> omega

/-- Whatever the timestamps: a read goes beyond its limit by at most twice the number of
entries that are stored under another key than their timestamp, because that key was taken
when they were put.  (Without any it keeps to its limit.) -/
theorem C05_overshoot_partial {st : Store} {src : Str} {a : GetArgs} (hl : 1 ≤ a.limit)
    {res : List Envelope} (hg : get st src a = some res) :
    (res.length : Int) ≤ a.limit +
      2 * ((st.entries src).filter fun x => decide (x.1 ≠ x.2.timestamp)).length := by
  unfold get at hg
  unfold Store.entries
  cases hs : idxLoad st.index src with
  | none => rw [hs] at hg; cases hg; simp; omega
  | some s =>
    rw [hs] at hg
    simp only at hg ⊢
    have hm : ∀ asc, (memberCount asc s.tree : Int) ≤
        2 * ((s.tree.toList.filter fun x => decide (x.1 ≠ x.2.timestamp)).length : Nat) := by
      intro asc
      have := memberCount_le asc s.tree
      unfold movedCount at this
      omega
    unfold getTree at hg
    split at hg
    · rcases hx : descTraverse a.start a.stop (getCallback a) s.tree (some []) with ⟨x, d⟩
      rw [hx] at hg; simp only at hg; subst hg
      have := desc_overshoot a s.tree [] res d 0 (by simp; omega) hx
      have := hm false
      cases d <;> simp at * <;> omega
    · rcases hx : ascTraverse a.start a.stop (getCallback a) s.tree (some []) with ⟨x, d⟩
      rw [hx] at hg; simp only at hg; subst hg
      have := asc_overshoot a s.tree [] res d 0 (by simp; omega) hx
      have := hm true
      cases d <;> simp at * <;> omega

/-- Timestamps 1, 1, 10 and limit 2: one entry has another key, and the answer is one longer
than the limit. -/
example : ∃ ops st res, Run (newStore { maxPerSource := 10 }) ops st ∧
    get st "a".toList { start := 0, stop := 20, limit := 2 } = some res ∧ res.length = 3 ∧
    ((st.entries "a".toList).filter fun x => decide (x.1 ≠ x.2.timestamp)).length = 1 :=
  ⟨_, _, _, run_after (cfg := { maxPerSource := 10 })
      (l := [("a", logAt 1 "p"), ("a", logAt 1 "q"), ("a", logAt 10)]) (by decide),
    rfl, by decide, by decide⟩

/-! ### C08 -/

/-- With a capacity of at most `maxFudge + 1` (4001 in production) a Put at capacity always
removes exactly the first stored entry and adds the new one. -/
theorem C08_evicts_small {cfg : Config} (hc : 1 ≤ cfg.maxPerSource)
    (hsmall : cfg.maxPerSource ≤ cfg.maxFudge + 1) {ops : List Op}
    {st st' : Store} (h : Run (newStore cfg) ops st) {now : Int} {src : Str} {e : Envelope}
    (hcap : ((st.envelopes src).length : Int) = cfg.maxPerSource)
    (hp : put now st src e = some st') :
    ∃ key oldest rest, e.timestamp ≤ key ∧ key ≤ e.timestamp + cfg.maxFudge ∧
      st.entries src = oldest :: rest ∧ (∀ x ∈ rest, oldest.1 < x.1) ∧
      (st'.entries src).Perm ((key, e) :: rest) := by
  refine C08_evicts_oldest_partial hc h hcap (free_key cfg.maxFudge _ ?_ _) hp
  have : (st.envelopes src).length = (st.entries src).length := by simp [Store.envelopes]
  rw [List.length_tail]
  omega

example : ∃ ops st st', Run (newStore { maxPerSource := 2 }) ops st ∧
    ((st.envelopes "a".toList).length : Int) = 2 ∧ (2 : Int) ≤ 4000 + 1 ∧
    put 0 st "a".toList (logAt 1 "r") = some st' :=
  ⟨_, _, _, run_after (cfg := { maxPerSource := 2 })
    (l := [("a", logAt 1 "p"), ("a", logAt 1 "q")]) (by decide), by decide, by decide, rfl⟩

/-- Envelopes from before a burst. -/
def earlyEntries : Nat → List (Int × Envelope)
  | 0 => []
  | m + 1 => (-((m : Int) + 1), { timestamp := -((m : Int) + 1) }) :: earlyEntries m

theorem length_early (m : Nat) : (earlyEntries m).length = m := by
  induction m with
  | zero => rfl
  | succ m ih => simp [earlyEntries, ih]

theorem early_bounds (m : Nat) : ∀ x ∈ earlyEntries m, -(m : Int) ≤ x.1 ∧ x.1 < 0 := by
  induction m with
  | zero => intro x hx; cases hx
  | succ m ih =>
    intro x hx
    rcases List.mem_cons.1 hx with rfl | hx
    · simp only; push_cast; omega
    · have := ih x hx; push_cast; omega

/-- A burst that takes all keys of a timestamp, and `m` older envelopes. -/
theorem early_run (cfg : Config) (m : Nat) (hc : ((cfg.maxFudge + 1 + m : Nat) : Int) ≤ cfg.maxPerSource) :
    ∃ ops st, Run (newStore cfg) ops st ∧
      st.entries [] = earlyEntries m ++ burstEntries (cfg.maxFudge + 1) := by
  have hc1 : 1 ≤ cfg.maxPerSource := by omega
  induction m with
  | zero =>
    obtain ⟨st, hr, he⟩ := burst_run cfg (cfg.maxFudge + 1) (by omega) (by omega) hc1
    exact ⟨_, st, hr, by simpa [earlyEntries] using he⟩
  | succ m ih =>
    obtain ⟨ops, st, hr, he⟩ := ih (by push_cast at hc ⊢; omega)
    obtain ⟨hi, hcfg⟩ := run_inv hc1 hr
    obtain ⟨st', hst'⟩ := put_total hi.idx (by rw [hcfg]; exact hc1) 0 [] { timestamp := -((m : Int) + 1) }
    refine ⟨_, st', Run.snoc (op := .put 0 [] { timestamp := -((m : Int) + 1) }) hr trivial hst', ?_⟩
    obtain ⟨f, hf⟩ := put_spec hi.idx hst'
    have hroom : makeRoom st.cfg.maxPerSource (st.entries []) = st.entries [] := by
      unfold makeRoom
      rw [he, hcfg, List.length_append, length_early, length_burst, if_neg (by push_cast at hc ⊢; omega)]
    have hall : ∀ x ∈ st.entries [], -((m : Int) + 1) < x.1 := by
      intro x hx
      rw [he] at hx
      rcases List.mem_append.1 hx with hx | hx
      · have := early_bounds m x hx; omega
      · have := (keys_burst _ x.1).1 (List.mem_map.2 ⟨x, hx, rfl⟩)
        omega
    have hf0 : f = 0 := by
      apply Classical.byContradiction
      intro hne
      have := hf.taken 0 (by omega)
      rw [hroom] at this
      obtain ⟨x, hx, hxk⟩ := List.mem_map.1 this
      have := hall x hx
      simp at hxk
      omega
    rw [hf.entries, hroom, hf0]
    simp only [earlyEntries]
    have : ∀ (v : Envelope) (L : List (Int × Envelope)), (∀ x ∈ L, -((m : Int) + 1) < x.1) →
        insertKV (-((m : Int) + 1)) v L = (-((m : Int) + 1), v) :: L := by
      intro v L hL
      cases L with
      | nil => rfl
      | cons p t =>
        obtain ⟨k, w⟩ := p
        have := hL (k, w) (by simp)
        rw [insertKV, if_pos this]
    rw [show (-((m : Int) + 1)) + ((0 : Nat) : Int) = -((m : Int) + 1) by simp, this _ _ hall, he]
    rfl

/-- With the production fudge limit of 4000 and any larger capacity, from 4002 on: a Put at
capacity removes the first entry and, when all 4001 keys of its timestamp are taken, also
destroys another one, which is not the oldest. -/
theorem C08_evicts_false (max : Int) (hmax : 4002 ≤ max) :
    ∃ ops st st' e lost oldest rest, Run (newStore { maxPerSource := max }) ops st ∧
      put 0 st [] e = some st' ∧ ((st.envelopes []).length : Int) = max ∧
      st.entries [] = oldest :: rest ∧ lost ∈ rest.map Prod.snd ∧ lost ≠ e ∧ lost ∉ st'.envelopes [] := by
  obtain ⟨m, hm⟩ : ∃ m : Nat, max = 4001 + (m + 1 : Nat) := ⟨(max - 4002).toNat, by push_cast; omega⟩
  obtain ⟨ops, st, hr, he⟩ := early_run { maxPerSource := max } (m + 1) (by simp; omega)
  have hc1 : 1 ≤ ({ maxPerSource := max } : Config).maxPerSource := by simp; omega
  obtain ⟨hi, hcfg⟩ := run_inv hc1 hr
  obtain ⟨st', hst'⟩ := put_total hi.idx (by rw [hcfg]; exact hc1) 0 [] (burstEnv 4001)
  obtain ⟨f, hf⟩ := put_spec hi.idx hst'
  have hlen : (st.entries []).length = 4001 + (m + 1) := by
    rw [he, List.length_append, length_early, length_burst]; simp; omega
  have htail : (st.entries []).tail = earlyEntries m ++ burstEntries 4001 := by
    rw [he]; rfl
  have hroom : makeRoom st.cfg.maxPerSource (st.entries []) = earlyEntries m ++ burstEntries 4001 := by
    unfold makeRoom
    rw [hcfg, if_pos (by rw [hlen]; simp; omega), htail]
  have hts : ∀ n, (burstEnv n).timestamp = 0 := fun _ => rfl
  have hfn : f = 4000 := by
    have h2 := hf.free
    have h3 := hf.fudge_le
    rw [hroom, hts] at h2
    rw [hcfg] at h2 h3
    simp only at h2 h3
    apply Classical.byContradiction; intro hne
    refine h2 (by omega) ?_
    unfold keys
    rw [List.map_append]
    exact List.mem_append_right _ ((keys_burst 4001 _).2 (by omega))
  have hlast : ((4000 : Int), burstEnv 4000) ∈ burstEntries 4001 := by
    rw [burstEntries_succ]; simp
  refine ⟨ops, st, st', burstEnv 4001, burstEnv 4000, _, _, hr, hst', ?_, he, ?_, ?_, ?_⟩
  · simp [Store.envelopes, hlen]; omega
  · exact List.mem_map.2 ⟨_, List.mem_append_right _ hlast, rfl⟩
  · intro h; have := burstEnv_inj h; omega
  · intro hin
    obtain ⟨x, hx, hxe⟩ := List.mem_map.1 hin
    rw [hf.entries, hroom, hts, hfn] at hx
    have hsort : Sorted (earlyEntries m ++ burstEntries 4001) := by
      rw [← htail]
      have := idxEntries_sorted hi.idx []
      rw [← entries_eq] at this
      exact this.tail
    have hkey : x.1 = 4000 := by
      have hmem : x ∈ earlyEntries m ++ burstEntries 4001 ∨ x = (0 + ((4000 : Nat) : Int), burstEnv 4001) := by
        rcases Tree.mem_insertKV hx with h | h
        · exact Or.inr h
        · exact Or.inl h
      rcases hmem with h | rfl
      · rcases List.mem_append.1 h with h | h
        · exfalso
          have hb : ∀ (k : Nat), ∀ y ∈ earlyEntries k, y.2.timestamp ≠ 0 := by
            intro k
            induction k with
            | zero => intro y hy; cases hy
            | succ k ih =>
              intro y hy
              rcases List.mem_cons.1 hy with rfl | hy
              · simp; omega
              · exact ih y hy
          exact hb m x h (by rw [hxe]; rfl)
        · obtain ⟨i, hi', rfl⟩ := List.mem_map.1 h
          simp only at hxe ⊢
          rw [burstEnv_inj hxe]; rfl
      · rfl
    have := insertKV_mem_key hsort hx (by rw [hkey]; rfl)
    rw [this] at hxe
    have := burstEnv_inj hxe
    omega

end LogCache
