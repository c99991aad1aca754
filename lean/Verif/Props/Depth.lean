import Verif.Proof.Depth
import Verif.Spec.StoreView
import Verif.Model.Routing
import Verif.Proof.Witness
/-! # Properties: cost of finding an envelope -/
namespace LogCache
open Spec

/-! ## C100 -/

/-- For the example: seven envelopes in order of time. -/
def puts7 : List (String × Envelope) := (List.range 7).map fun i => ("a", logAt (i : Nat))

/-- After any history, every way down the ordered map of a source, and so every search,
insertion and removal, looks at a number of entries logarithmic in the number of
envelopes stored for the source. -/
theorem C100_logarithmic {cfg : Config} {ops : List Op} {st : Store} (h : Run (newStore cfg) ops st)
    {src : Str} {s : Storage} (hs : idxLoad st.index src = some s) {ks : List Int} (hk : WayDown s.tree ks) :
    ks.length ≤ 2 * Nat.log2 ((st.envelopes src).length + 1) + 1 := by
  have hb : Balanced s.tree := run_balanced h _ (idxLoad_mem hs)
  have := way_log hb hk
  rw [Tree.size_eq_length] at this
  unfold Store.envelopes Store.entries
  rw [hs, List.length_map]
  exact this

-- Seven envelopes in order of time: three comparisons find the last one.
example : Run (newStore ⟨10, 4000⟩) (puts puts7) (after ⟨10, 4000⟩ puts7) ∧
    ((idxLoad (after ⟨10, 4000⟩ puts7).index "a".toList).map fun s => (getCounted 6 s.tree).2) = some 3 :=
  ⟨run_after (by decide), by decide⟩

/-- The counted search is the search, and its count is the length of a way down. -/
theorem C100_search {α : Type} (key : Int) (t : Tree α) :
    (getCounted key t).1 = t.get key ∧ ∃ ks, WayDown t ks ∧ (getCounted key t).2 = ks.length := by
  induction t with
  | nil => exact ⟨rfl, [], .stop _, rfl⟩
  | node l k v b r ihl ihr =>
    rw [getCounted, Tree.get]
    by_cases h : key = k
    · rw [if_pos h, if_pos h]; exact ⟨rfl, [k], .left (.stop _), rfl⟩
    · rw [if_neg h, if_neg h]
      dsimp only
      by_cases hlt : key < k
      · rw [if_pos hlt, if_pos hlt]
        obtain ⟨h1, ks, h2, h3⟩ := ihl
        exact ⟨h1, k :: ks, .left h2, by rw [h3]; rfl⟩
      · rw [if_neg hlt, if_neg hlt]
        obtain ⟨h1, ks, h2, h3⟩ := ihr
        exact ⟨h1, k :: ks, .right h2, by rw [h3]; rfl⟩

/-- After any history, rebalancing never dereferences a missing child: storing an
envelope under any key and removing any key do what the model says, without a panic. -/
theorem C100_no_nil {cfg : Config} {ops : List Op} {st : Store} (h : Run (newStore cfg) ops st)
    {src : Str} {s : Storage} (hs : idxLoad st.index src = some s) (key : Int) (e : Envelope) :
    Tree.putAuxP key e s.tree = some (Tree.putAux key e s.tree) ∧
    Tree.removeAuxP key s.tree = some (Tree.removeAux key s.tree) ∧
    ∀ key', Tree.putAuxP key e (s.tree.remove key') = some (Tree.putAux key e (s.tree.remove key')) := by
  have hb : Balanced s.tree := run_balanced h _ (idxLoad_mem hs)
  exact ⟨putAuxP_eq key e hb, removeAuxP_eq key hb, fun key' => putAuxP_eq key e (balanced_remove key' hb)⟩

private theorem staticLoop_balanced (x n start : Nat) {t : Tree Nat} (h : Balanced t) :
    Balanced (staticLoop x n start t) := by
  induction n generalizing start t with
  | zero => exact h
  | succ n ih => rw [staticLoop]; exact ih _ (balanced_put _ _ h)

/-- The same for the map of hash ranges by which nodes find each other. -/
theorem C100_lookup {n : Int} {t : Tree Nat} (h : newStaticLookup n = some t) {ks : List Int}
    (hk : WayDown t ks) : ks.length ≤ 2 * Nat.log2 (t.toList.length + 1) + 1 := by
  unfold newStaticLookup at h
  split at h
  · cases h
  · cases h
    rw [← Tree.size_eq_length]
    exact way_log (staticLoop_balanced _ _ _ (t := .nil) (by trivial)) hk

end LogCache
