import Verif.Model.Blackbox
import Verif.Spec.Float
import Verif.Spec.Client
import Verif.Spec.Num

/-! # What the operator of a blackbox expects -/

namespace LogCache.Spec

/-- The series that is counted: the first of a matrix. -/
def Counted {F : Type} (ans : Option (Option (PResult F))) (n : Nat) : Prop :=
  ∃ s ss, ans = some (some (.matrix (s :: ss))) ∧ s.points.length = n

/-- `t` is a time of the grid with the distance `d` that starts with the year 1. -/
def OnGrid (d t : Int) : Prop := d ∣ t + 62135596800000000000

/-- `t` is the last time of the grid up to `now`. -/
def LastGrid (d now t : Int) : Prop := OnGrid d t ∧ t ≤ now ∧ now < t + d

/-- The VM is known to run for less than ten minutes. -/
def YoungVm (info : HttpAns Str) : Prop :=
  ∃ s n, info = .resp 200 (some s) ∧ IsInt64 s n ∧ 0 ≤ n ∧ n < 600

/-- What a round measured, by name. -/
def Measured (g h : Option F64) (name : Str) (x : F64) : Prop :=
  (name = "blackbox.grpc_reliability".toList ∧ g = some x) ∨ (name = "blackbox.http_reliability".toList ∧ h = some x)

end LogCache.Spec
