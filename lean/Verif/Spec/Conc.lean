import Verif.Model.Conc
import Verif.Spec.History
/-! # What can be observed of a concurrent run -/
namespace LogCache.Spec

/-- The call an event belongs to. -/
def evId : Ev → Nat
  | .call i _ => i
  | .commit i .. => i
  | .read i .. => i
  | .metaRes i _ => i
  | .pruning i _ => i
  | .dropped i _ => i
  | .ret i => i
  | .panic i _ => i

/-- The events of call `i`. -/
def eventsOf (i : Nat) (evs : List Ev) : List Ev := evs.filter (fun e => evId e = i)

/-- The events since call `i` was made. -/
def since (i : Nat) : List Ev → List Ev
  | [] => []
  | .call j c :: evs => if j = i then evs else since i evs
  | _ :: evs => since i evs

/-- What one call can show: it is made, takes effect at most once and only then
returns; a panic ends it. -/
inductive CallHistory (i : Nat) : List Ev → Prop where
  | notMade : CallHistory i []
  | made (c : Call) : CallHistory i [.call i c]
  | put (src : Str) (e : Envelope) (now : Int) : CallHistory i [.call i (.put src e), .commit i src e now]
  | putDone (src : Str) (e : Envelope) (now : Int) :
      CallHistory i [.call i (.put src e), .commit i src e now, .ret i]
  | getDone (src : Str) (a : GetArgs) (res : List Envelope) :
      CallHistory i [.call i (.get src a), .read i src a res, .ret i]
  | metaDone (r : List (Str × MetaInfo)) : CallHistory i [.call i .metaAll, .metaRes i r, .ret i]
  | pruneIdle : CallHistory i [.call i .prune, .ret i]
  | pruning (n : Nat) (ds : List Str) :
      CallHistory i (.call i .prune :: .pruning i n :: ds.map (.dropped i))
  | pruneDone (n : Nat) (ds : List Str) :
      CallHistory i (.call i .prune :: .pruning i n :: (ds.map (.dropped i) ++ [.ret i]))
  | panicked {l : List Ev} (why : Panic) : CallHistory i l → Ev.ret i ∉ l → CallHistory i (l ++ [.panic i why])

/-- The Puts and Gets of a run as calls of the sequential store, in the order in
which they took effect. -/
def seqOp : Ev → Option Op
  | .commit _ src e now => some (.put now src e)
  | .read _ src a _ => some (.get src a)
  | _ => none

def seqOps (evs : List Ev) : List Op := evs.filterMap seqOp

/-- No prune has found anything to remove. -/
def NoPruning (evs : List Ev) : Prop := ∀ i n, Ev.pruning i n ∉ evs

/-- The envelopes a Get of the source can reach, with their keys in storage order. -/
def storedAt (s : Conc) (src : Str) : List (Int × Envelope) :=
  match s.index.lookup src with
  | some a => match s.heap[a]? with
    | some o => o.storage.tree.toList
    | none => []
  | none => []

/-- The number of envelopes Gets can reach. -/
def reachable (s : Conc) : Nat := (s.index.map fun p => (storedAt s p.1).length).sum

/-- Call `j` is a Put to `src` that has not taken effect. -/
def PutInFlight (evs : List Ev) (j : Nat) (src : Str) : Prop :=
  ∃ e, eventsOf j evs = [.call j (.put src e)]

/-- `src` was dropped by a prune after call `i` was made. -/
def DroppedSince (evs : List Ev) (i : Nat) (src : Str) : Prop := ∃ j, Ev.dropped j src ∈ since i evs

/-- The Gets of the run ask only for envelope types the API knows. -/
def KnownTypes (evs : List Ev) : Prop :=
  ∀ i src a, Ev.call i (.get src a) ∈ evs → ∀ ts, a.types = some ts → ∀ n, EType.other n ∉ ts

/-- The Puts to every source that take effect are sparse: at most 4001 of them within
4000ns of any one of them (4000 is the store's `maxTimestampFudge`). -/
def AllSparse (cfg : Config) (evs : List Ev) : Prop := ∀ src, Sparse cfg.maxFudge (putsOf (seqOps evs) src)

/-- No Put takes effect after a prune has dropped its source. -/
def NoLate (evs : List Ev) : Prop :=
  ∀ pre i src e now post, evs = pre ++ Ev.commit i src e now :: post → ¬ DroppedSince pre i src

/-- Prune `i` has found something to remove and has not finished. -/
def PruneRunning (evs : List Ev) (i : Nat) : Prop := (∃ n, Ev.pruning i n ∈ evs) ∧ Ev.ret i ∉ evs

/-- Call `j` is a Meta that has not returned. -/
def MetaInFlight (evs : List Ev) (j : Nat) : Prop := eventsOf j evs = [.call j .metaAll]

/-- At no moment of the run is a prune removing envelopes while a Put has not taken
effect or a Meta has not returned. -/
def Exclusive (evs : List Ev) : Prop :=
  ∀ pre post, evs = pre ++ post → ∀ i, PruneRunning pre i →
    ∀ j, ¬ MetaInFlight pre j ∧ ∀ src, ¬ PutInFlight pre j src

/-- While a prune removes envelopes, no call waits to take effect. -/
def PrunesAlone (evs : List Ev) : Prop :=
  ∀ pre post, evs = pre ++ post → ∀ i, PruneRunning pre i → ∀ j c, eventsOf j pre ≠ [.call j c]

/-- The call of the sequential store at `S` that stands for an event: a Put; a Get with the
same answer; or a prune of as many envelopes as are asked for, but no more than there are. -/
inductive Performs (S : Store) : Ev → Op → Prop where
  | put (i : Nat) (src : Str) (e : Envelope) (now : Int) : Performs S (.commit i src e now) (.put now src e)
  | get (i : Nat) (src : Str) (a : GetArgs) (res : List Envelope) (h : get S src a = some res) :
      Performs S (.read i src a res) (.get src a)
  | prune (i n : Nat) (now : Int) (mc : Int → Int) (order : List (Str × Storage))
      (h : n = (min (mc S.g.count) S.g.count).toNat) : Performs S (.pruning i n) (.truncate now mc order)

/-- A call takes effect. -/
def takesEffect : Ev → Bool
  | .commit .. => true
  | .read .. => true
  | .pruning .. => true
  | _ => false

/-- The sequential store, given the calls of the run one by one in the order in which they took
effect, comes to the state `S`. -/
inductive Replay (cfg : Config) : List Ev → Store → Prop where
  | new : Replay cfg [] (newStore cfg)
  | call {evs : List Ev} {S S' : Store} {e : Ev} {op : Op} :
      Replay cfg evs S → Performs S e op → op.valid S → op.exec S = some S' → Replay cfg (evs ++ [e]) S'
  | other {evs : List Ev} {S : Store} {e : Ev} :
      Replay cfg evs S → takesEffect e = false → Replay cfg (evs ++ [e]) S

/-- From the moment a Put takes effect until it returns, no other Put takes effect. -/
def OneAtATime (evs : List Ev) : Prop :=
  ∀ pre i src e now post, evs = pre ++ Ev.commit i src e now :: post →
    ∀ j src' e' now', Ev.commit j src' e' now' ∈ pre → Ev.ret j ∈ pre

/-- All Puts that have taken effect have returned. -/
def PutsReturned (evs : List Ev) : Prop :=
  ∀ j src e now, Ev.commit j src e now ∈ evs → Ev.ret j ∈ evs

end LogCache.Spec
