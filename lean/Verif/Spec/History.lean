import Verif.Spec.StoreView
/-!
# Histories of a store, with bookkeeping
-/
namespace LogCache

/-- The envelopes put under a source, in order. -/
def putsOf (ops : List Op) (src : Str) : List Envelope :=
  ops.filterMap fun
    | .put _ s e => if s = src then some e else none
    | _ => none

/-- No two envelopes put under the same source carry the same timestamp. -/
def DistinctTs (ops : List Op) : Prop :=
  ∀ src, ((putsOf ops src).map Envelope.timestamp).Nodup

/-- Is the call a prune? -/
def Op.isPrune : Op → Bool
  | .truncate .. => true
  | _ => false

/-- At most `F + 1` of the envelopes put under a source have timestamps within
`F` of any one of them. -/
def Sparse (F : Nat) (l : List Envelope) : Prop :=
  ∀ e ∈ l, (l.filter fun x => decide (e.timestamp - F ≤ x.timestamp ∧ x.timestamp ≤ e.timestamp + F)).length
    ≤ F + 1

/-- `ops` contains no prune. -/
def NoPrune (ops : List Op) : Prop := ∀ op ∈ ops, op.isPrune = false

/-- No timestamp of the history is so near the end of time that a key could be beyond it. -/
def Spec.FarFromEnd (cfg : Config) (ops : List Op) : Prop :=
  ∀ now src e, Op.put now src e ∈ ops → -2 ^ 63 ≤ e.timestamp ∧ e.timestamp + cfg.maxFudge < 2 ^ 63

/-- At some time during a history of a new store something was stored under the key `k`. -/
def StoredOnce (cfg : Config) (ops : List Op) (k : Int) : Prop :=
  ∃ pre post st src x, ops = pre ++ post ∧ Run (newStore cfg) pre st ∧ x ∈ st.entries src ∧ x.1 = k

/-- Timestamps never decrease. -/
def InOrder (l : List Envelope) : Prop := l.Pairwise (fun x y => x.timestamp ≤ y.timestamp)

/-- Bookkeeping beside a history: per source, how many envelopes were put and how
many of those Puts overwrote an entry since the source (re)appeared; and the
number of overwriting Puts over all sources. -/
structure Ghost where
  puts : Str → Nat := fun _ => 0
  lost : Str → Nat := fun _ => 0
  drift : Nat := 0

open Classical in
/-- Bookkeeping for one call that took `st` to `st'`. -/
noncomputable def Ghost.step (st st' : Store) (gh : Ghost) : Op → Ghost
  | .put _ src e =>
    let ow := if overwrites st.cfg (st.entries src) e then 1 else 0
    { puts := fun s => if s = src then gh.puts s + 1 else gh.puts s
      lost := fun s => if s = src then gh.lost s + ow else gh.lost s
      drift := gh.drift + ow }
  | .truncate .. =>
    { gh with puts := fun s => if s ∈ st'.sources then gh.puts s else 0
              lost := fun s => if s ∈ st'.sources then gh.lost s else 0 }
  | .get .. => gh

/-- A history of a new store together with its bookkeeping. -/
inductive Hist (cfg : Config) : List Op → Store → Ghost → Prop where
  | nil : Hist cfg [] (newStore cfg) {}
  | snoc {ops : List Op} {st st' : Store} {gh : Ghost} {op : Op} :
      Hist cfg ops st gh → op.valid st → op.exec st = some st' →
      Hist cfg (ops ++ [op]) st' (gh.step st st' op)

/-! ## The abstract log: what a store should remember -/

/-- Insert an envelope at its place in a list ordered by timestamp. -/
def insertByTs (e : Envelope) : List Envelope → List Envelope
  | [] => [e]
  | x :: t => if e.timestamp < x.timestamp then e :: x :: t else x :: insertByTs e t

/-- Storing an envelope in a log of at most `max`: a full log forgets its oldest
envelope first. -/
def remember (max : Int) (e : Envelope) (log : List Envelope) : List Envelope :=
  insertByTs e (if max ≤ (log.length : Int) then log.tail else log)

/-- Abstract effect of one call on all logs (`sources` is a list of all sources
with a non-empty log).  A prune forgets `n` envelopes, oldest first: there is a
cutoff time such that everything older is forgotten and everything newer stays. -/
inductive LogStep (cfg : Config) : (Str → List Envelope) → Op → (Str → List Envelope) → Prop where
  | put (A : Str → List Envelope) (now : Int) (src : Str) (e : Envelope) :
      LogStep cfg A (.put now src e)
        (fun s => if s = src then remember cfg.maxPerSource e (A s) else A s)
  | get (A : Str → List Envelope) (src : Str) (a : GetArgs) : LogStep cfg A (.get src a) A
  | prune (A A' R : Str → List Envelope) (now : Int) (mc : Int → Int)
      (order : List (Str × Storage)) (sources : List Str)
      (hsrc : sources.Nodup) (hall : ∀ s, A s ≠ [] → s ∈ sources)
      (hsplit : ∀ s, A s = R s ++ A' s)
      (hold : ∀ s s' x y, x ∈ R s → y ∈ A' s' → x.timestamp ≤ y.timestamp)
      (hnum : ∀ total, total = ((sources.map fun s => (A s).length).sum : Nat) →
        (sources.map fun s => (R s).length).sum = (min (mc total) total).toNat) :
      LogStep cfg A (.truncate now mc order) A'

/-- Abstract effect of a whole history, starting from empty logs. -/
inductive LogRun (cfg : Config) : List Op → (Str → List Envelope) → Prop where
  | nil : LogRun cfg [] (fun _ => [])
  | snoc {ops : List Op} {A A' : Str → List Envelope} {op : Op} :
      LogRun cfg ops A → LogStep cfg A op A' → LogRun cfg (ops ++ [op]) A'

end LogCache
