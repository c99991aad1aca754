import Verif.Model.Float
/-!
# The prune consultant in float64

`/repo/internal/cache/store/prune_consultant.go:35-50` and
`/repo/internal/cache/memory_analyzer.go:37-57`, with the float64 arithmetic they use.
`quantityToPrune` (Model/Reader.lean) is the same in exact arithmetic.
-/
namespace LogCache

/-- `m * 2^e` as an integer number of units `2^e0`, for `e0 ≤ e`.
Library code, reached from `prune_consultant.go:38-46`. -/
def f64Units (neg : Bool) (m : Nat) (e e0 : Int) : Int :=
  let k : Nat := m * 2 ^ (e - e0).toNat
  if neg then -(k : Int) else k

/-- `x - y`. Library code, reached from `prune_consultant.go:38-46`. -/
def F64.sub : F64 → F64 → F64
  | .nan, _ => .nan
  | _, .nan => .nan
  | .inf s, .inf s' => if s = s' then .nan else .inf s
  | .inf s, .fin .. => .inf s
  | .fin .., .inf s' => .inf (!s')
  | .fin s m e, .fin s' m' e' =>
    let d := f64Units s m e (min e e') - f64Units s' m' e' (min e e')
    if d = 0 then .fin (decide (m = 0) && s && !s') 0 0
    else f64Pow (decide (d < 0)) d.natAbs (min e e')

/-- `x > y`. Library code, reached from `prune_consultant.go:38-46`. -/
def F64.gt : F64 → F64 → Bool
  | .nan, _ => false
  | _, .nan => false
  | .inf s, .inf s' => !s && s'
  | .inf s, .fin .. => !s
  | .fin .., .inf s' => s'
  | .fin s m e, .fin s' m' e' => decide (f64Units s' m' e' (min e e') < f64Units s m e (min e e'))

/-- What `Memory` returns (memory_analyzer.go:37-57): the heap in use and the total memory.
`sigar` is what `m.Get()` of the gosigar library reads; its error (`none`) is ignored, and
the total stays 0. -/
def analyzerMemory (sigar : Option Nat) (heapInUse : Nat) : Nat × Nat := (heapInUse, sigar.getD 0)

/-- `GetQuantityToPrune` (prune_consultant.go:35-50). -/
def quantity64 (percentToFill : F64) (memory : Nat × Nat) (storeCount : Int) : Int :=
  let heapPercentage := (f64OfInt ((memory.1 * 100 % 2 ^ 64 : Nat) : Int)).div (f64OfInt (memory.2 : Int))
  if heapPercentage.gt percentToFill then
    ((f64OfInt storeCount).mul ((heapPercentage.sub percentToFill).div heapPercentage)).toInt64
  else 0

end LogCache
