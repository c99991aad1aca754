import Verif.Proof.History
import Verif.Spec.Spread
import Mathlib.Data.List.Perm.Subperm
/-! # Keys of envelopes with equal timestamps -/
namespace LogCache
open Spec

theorem howMany_append (l m : List Envelope) (ts : Int) : howMany (l ++ m) ts = howMany l ts + howMany m ts := by
  simp [howMany]

theorem spread_prefix {l m : List Envelope} (h : Spread (l ++ m)) : Spread l := by
  intro x hx y hy hlt
  have := h x (List.mem_append_left _ hx) y (List.mem_append_left _ hy) hlt
  rw [howMany_append] at this
  omega

/-- No more entries of a time are stored than were put. -/
theorem entries_howMany {L : List (Int × Envelope)} {k : Int} {e : Envelope} (ts : Int) :
    howMany ((insertKV k e L).map Prod.snd) ts ≤ howMany (L.map Prod.snd) ts + howMany [e] ts := by
  induction L with
  | nil => simp [insertKV, howMany]
  | cons p t ih =>
    obtain ⟨k', v⟩ := p
    have hc : ∀ (a : Envelope) (l : List Envelope), howMany (a :: l) ts = howMany [a] ts + howMany l ts :=
      fun a l => howMany_append [a] l ts
    simp only [insertKV]
    split
    · simp only [List.map_cons]
      rw [hc e, hc v]
      omega
    · split
      · simp only [List.map_cons]
        rw [hc e, hc v]
        omega
      · simp only [List.map_cons]
        rw [hc v, hc v (List.map _ t)]
        omega

theorem makeRoom_howMany (max : Int) (L : List (Int × Envelope)) (ts : Int) :
    howMany ((makeRoom max L).map Prod.snd) ts ≤ howMany (L.map Prod.snd) ts := by
  unfold makeRoom howMany
  split
  · exact (((List.tail_sublist L).map Prod.snd).filter _).length_le
  · exact Nat.le_refl _

/-- The keys of what is stored: not before the time of the envelope, and not further behind it
than there are envelopes of this time. -/
def Near (puts : List Envelope) (L : List (Int × Envelope)) : Prop :=
  (∀ x ∈ L, x.2 ∈ puts ∧ x.2.timestamp ≤ x.1 ∧ x.1 < x.2.timestamp + howMany puts x.2.timestamp) ∧
  ∀ ts, howMany (L.map Prod.snd) ts ≤ howMany puts ts

/-- A new envelope is not moved further than there are of its time. -/
theorem near_fudge {puts : List Envelope} {L : List (Int × Envelope)} {e : Envelope} (hn : Near puts L)
    (hs : Spread (puts ++ [e])) {f : Nat} (ht : ∀ i : Nat, i < f → e.timestamp + i ∈ keys L) :
    f ≤ howMany puts e.timestamp := by
  rcases Nat.lt_or_ge (howMany puts e.timestamp) f with hlt | hge
  · exfalso
    have hcnt : howMany (puts ++ [e]) e.timestamp = howMany puts e.timestamp + 1 := by
      rw [howMany_append]; simp [howMany]
    have hown : ∀ i : Nat, i < howMany puts e.timestamp + 1 → ∃ x ∈ L, x.1 = e.timestamp + i ∧ x.2.timestamp = e.timestamp := by
      intro i hi
      obtain ⟨x, hx, hk⟩ := List.mem_map.1 (ht i (by omega))
      refine ⟨x, hx, hk, ?_⟩
      obtain ⟨h1, h2, h3⟩ := hn.1 x hx
      rcases Int.lt_trichotomy x.2.timestamp e.timestamp with h | h | h
      · have := hs x.2 (List.mem_append_left _ h1) e (by simp) h
        rw [howMany_append] at this
        omega
      · exact h
      · have := hs e (by simp) x.2 (List.mem_append_left _ h1) h
        rw [hcnt] at this
        omega
    have hsub : ((List.range (howMany puts e.timestamp + 1)).map fun i : Nat => e.timestamp + (i : Int)) ⊆
        keys (L.filter fun x => decide (x.2.timestamp = e.timestamp)) := by
      intro k hk
      obtain ⟨i, hi, rfl⟩ := List.mem_map.1 hk
      obtain ⟨x, hx, h1, h2⟩ := hown i (List.mem_range.1 hi)
      exact List.mem_map.2 ⟨x, List.mem_filter.2 ⟨hx, by simpa using h2⟩, h1⟩
    have hnd : ((List.range (howMany puts e.timestamp + 1)).map fun i : Nat => e.timestamp + (i : Int)).Nodup := by
      unfold List.Nodup
      rw [List.pairwise_map]
      exact List.nodup_range.imp fun h => by omega
    have hlen := (List.Nodup.subperm hnd hsub).length_le
    have hfl : (keys (L.filter fun x => decide (x.2.timestamp = e.timestamp))).length =
        howMany (L.map Prod.snd) e.timestamp := by
      unfold keys howMany
      rw [List.length_map, List.filter_map, List.length_map]
      rfl
    rw [List.length_map, List.length_range, hfl] at hlen
    have := hn.2 e.timestamp
    omega
  · exact hge

theorem near_mono {puts puts' : List Envelope} {L L' : List (Int × Envelope)} (h : Near puts L) (hp : puts <+: puts')
    (hl : L'.Sublist L) : Near puts' L' := by
  obtain ⟨r, rfl⟩ := hp
  refine ⟨fun x hx => ?_, fun ts => ?_⟩
  · obtain ⟨h1, h2, h3⟩ := h.1 x (hl.subset hx)
    refine ⟨List.mem_append_left _ h1, h2, ?_⟩
    rw [howMany_append]
    omega
  · have h1 := h.2 ts
    have h2 : howMany (L'.map Prod.snd) ts ≤ howMany (L.map Prod.snd) ts := ((hl.map Prod.snd).filter _).length_le
    rw [howMany_append]
    omega

theorem makeRoom_sublist (max : Int) (L : List (Int × Envelope)) : (makeRoom max L).Sublist L := by
  unfold makeRoom
  split
  · exact List.tail_sublist L
  · exact List.Sublist.refl _

theorem spread_near {cfg : Config} (hc : 1 ≤ cfg.maxPerSource) {ops : List Op} {st : Store}
    (h : Run (newStore cfg) ops st) (src : Str) (hs : Spread (putsOf ops src)) : Near (putsOf ops src) (st.entries src) := by
  revert hs
  refine run_induct hc (P := fun ops st => Spread (putsOf ops src) → Near (putsOf ops src) (st.entries src)) ?_ ?_ h
  · intro _
    exact ⟨(fun x hx => by cases hx), fun ts => Nat.zero_le _⟩
  · intro ops st op st' hr hi hcfg ih hv hx hs
    rw [putsOf_append] at hs ⊢
    have ih := ih (spread_prefix hs)
    have hpre : putsOf ops src <+: putsOf ops src ++ putsOf [op] src := ⟨_, rfl⟩
    cases op with
    | put now s e =>
      obtain ⟨f, hf⟩ := put_spec hi.idx hx
      by_cases hss : src = s
      · subst hss
        rw [putsOf_put, if_pos rfl] at hs ⊢
        have hroom := near_mono ih (List.prefix_refl _) (makeRoom_sublist st.cfg.maxPerSource (st.entries src))
        have hfud := near_fudge hroom hs hf.taken
        rw [hf.entries]
        refine ⟨fun x hxm => ?_, fun ts => ?_⟩
        · rcases Tree.mem_insertKV hxm with rfl | hxm
          · refine ⟨by simp, by show e.timestamp ≤ e.timestamp + f; omega, ?_⟩
            rw [howMany_append]
            simp [howMany] at hfud ⊢
            omega
          · exact (near_mono hroom ⟨[e], rfl⟩ (List.Sublist.refl _)).1 x hxm
        · have h1 := entries_howMany (L := makeRoom st.cfg.maxPerSource (st.entries src)) (k := e.timestamp + f) (e := e) ts
          have h2 := hroom.2 ts
          rw [howMany_append]
          omega
      · rw [entries_other hf hss]
        exact near_mono ih hpre (List.Sublist.refl _)
    | truncate now mc o =>
      obtain ⟨R, hR, -⟩ := (truncate_spec hi.idx hv hx).removed
      refine near_mono ih hpre ?_
      rw [hR src]
      exact List.sublist_append_right _ _
    | get s a =>
      simp only [Op.exec, Option.some.injEq] at hx
      subst hx
      rw [entries_getState]
      exact near_mono ih hpre (List.Sublist.refl _)

/-- The storage order agrees with the order of time. -/
theorem near_ordered {puts : List Envelope} {L : List (Int × Envelope)} (hn : Near puts L) (hs : Spread puts)
    (hl : Sorted L) : (L.map Prod.snd).Pairwise (fun x y => x.timestamp ≤ y.timestamp) := by
  rw [List.pairwise_map]
  refine List.Pairwise.imp_of_mem ?_ hl
  intro x y hx hy hk
  rcases Int.lt_or_le y.2.timestamp x.2.timestamp with h | h
  · exfalso
    obtain ⟨a1, a2, a3⟩ := hn.1 x hx
    obtain ⟨b1, b2, b3⟩ := hn.1 y hy
    have := hs y.2 b1 x.2 a1 h
    omega
  · exact h

end LogCache
