import Verif.Spec.Walk
/-!
# Runs of `Window`
-/
namespace LogCache
namespace Spec

/-- One window: the time its walk begins, the trace of the walk, the visitor's answer. -/
structure Visit where
  began : Int
  tr : List (WalkIn × Option (List Envelope))
  more : Bool

/-- What the visitor is given. -/
def Visit.batch (v : Visit) : List Envelope := (delivered v.tr).flatten

/-- A finite part of a run of `Window` over walkers as `BuildWalker` makes them, from the window
that starts at `s`; the result is `none` when it has returned and the start of the next window
otherwise. `env t` are the answers that a walk may get that begins at `t`. -/
inductive WindowRun (c : WindowCfg) (src : Str) (env : Int → ReadRequest → WalkIn → Prop) :
    Int → List Visit → Option Int → Prop
  | nil (s : Int) : WindowRun c src env s [] (some s)
  | done {s : Int} {v : Visit} :
      WalkRun alwaysDone (windowWalk s (s + c.width)) src (env v.began)
        (walkInit (windowWalk s (s + c.width)) ()) v.tr none →
      windowStep c s v.more = none → WindowRun c src env s [v] none
  | step {s s' : Int} {v : Visit} {vs : List Visit} {r : Option Int} :
      WalkRun alwaysDone (windowWalk s (s + c.width)) src (env v.began)
        (walkInit (windowWalk s (s + c.width)) ()) v.tr none →
      windowStep c s v.more = some s' → WindowRun c src env s' vs r → WindowRun c src env s (v :: vs) r

/-- A ticker that was started at `t0` sends its `m`-th tick at `t0 + m * interval`; each window
takes a later tick than the one before. Ticks may be dropped and windows may begin late. -/
def OnTicks (t0 interval : Int) (vs : List Visit) : Prop :=
  ∃ m : Nat → Nat, 1 ≤ m 0 ∧ (∀ i j, i < j → m i < m j) ∧
    ∀ k v, vs[k]? = some v → t0 + m k * interval ≤ v.began

/-- A reader of a growing log. `seen t e`: a read at time `t` finds `e`. The read takes place
after the walk has begun and before the walk looks at its clock. It fails or returns the first
100 envelopes of the window (the default of the server); the visitor of `BuildWalker` never
stops the walk. -/
def GrowingReader (all : List Envelope) (seen : Int → Envelope → Bool) (began : Int) (req : ReadRequest) : WalkIn → Prop
  | .failed _ => True
  | .got es now more => more = true ∧ ∃ t, began ≤ t ∧ t ≤ now ∧
      es = (between req.start req.stop (all.filter (seen t))).take 100

/-- No walk ended with a failed read. -/
def WalksSucceed (vs : List Visit) : Prop := ∀ v ∈ vs, ∃ es now more d, v.tr.getLast? = some (.got es now more, d)

end Spec
end LogCache
