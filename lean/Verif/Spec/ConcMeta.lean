import Verif.Spec.Conc
/-! # What a Meta that runs beside other calls can say -/
namespace LogCache.Spec

/-- `CSteps s evs s'`: some schedule leads from `s` to `s'` with the events `evs`. -/
inductive CSteps : Conc → List Ev → Conc → Prop where
  | refl (s : Conc) : CSteps s [] s
  | step {s s' s'' : Conc} {evs evs' : List Ev} : CSteps s evs s' → CStep s' evs' s'' → CSteps s (evs ++ evs') s''

/-- No prune has dropped `k`. -/
def NeverDropped (evs : List Ev) (k : Str) : Prop := ∀ j, Ev.dropped j k ∉ evs

/-- The envelopes for `k` whose Puts have taken effect. -/
def committed (evs : List Ev) (k : Str) : List Envelope :=
  evs.filterMap fun
    | .commit _ src e _ => if src = k then some e else none
    | _ => none

/-- Oldest, newest and expired of `m` are those of source `k` at the moment `s`, after `evs`:
the oldest is the first key; the newest is the timestamp of an envelope that was put
(or 0) and no stored one is newer; the expired ones are, with the stored ones, all that
were put unless the source was dropped or Puts had to overwrite.  Nothing is stored
only while a Put to the source is on its way. -/
structure Describes (cfg : Config) (evs : List Ev) (s : Conc) (k : Str) (m : MetaInfo) : Prop where
  oldest : (storedAt s k = [] ∧ ∃ j, PutInFlight evs j k) ∨
    ∃ first rest, storedAt s k = (m.oldest, first) :: rest ∧
      first.timestamp ≤ m.oldest ∧ m.oldest ≤ first.timestamp + cfg.maxFudge
  newest : ∀ x ∈ storedAt s k, x.2.timestamp ≤ m.newest
  newest_put : m.newest = 0 ∨ ∃ e ∈ committed evs k, e.timestamp = m.newest
  expired : 0 ≤ m.expired ∧ m.expired + (storedAt s k).length ≤ (committed evs k).length
  expired_all : NeverDropped evs k → Sparse cfg.maxFudge (committed evs k) →
    m.expired + (storedAt s k).length = (committed evs k).length

end LogCache.Spec
