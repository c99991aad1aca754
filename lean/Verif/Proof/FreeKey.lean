import Verif.Proof.Clean
/-! # A free key among the keys of one timestamp -/
namespace LogCache
open Spec

/-- Fewer than `maxFudge + 1` entries leave one of the `maxFudge + 1` keys free. -/
theorem free_key (F : Nat) (L : List (Int × Envelope)) (h : L.length ≤ F) (t : Int) :
    ∃ i : Nat, i ≤ F ∧ t + i ∉ keys L := by
  refine Classical.byContradiction fun hno => ?_
  have hall : ∀ i : Nat, i ≤ F → t + i ∈ keys L := by
    intro i hi
    exact Classical.byContradiction fun hh => hno ⟨i, hi, hh⟩
  have hK : ((List.range (F + 1)).map fun (i : Nat) => t + (i : Int)).Nodup := by
    apply List.Pairwise.map (R := fun a b : Nat => a ≠ b) (S := fun a b : Int => a ≠ b)
      (f := fun i : Nat => t + (i : Int))
    · intro a b hab; omega
    · exact List.nodup_range
  have := nodup_length_le hK (l' := keys L) (by
    intro k hk
    obtain ⟨i, hi, rfl⟩ := List.mem_map.1 hk
    exact hall i (by have := List.mem_range.1 hi; omega))
  simp [keys] at this
  omega

end LogCache
