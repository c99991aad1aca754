import Verif.Proof.ConcExcl
import Verif.Model.Reader
/-! # Running the concurrent store on a given schedule

`exec` takes the next step of a chosen thread; used to exhibit runs. -/
namespace LogCache
open Spec

inductive Move where
  | call (c : Call)
  | go (i : Nat)
  | visit (i : Nat) (k : Str)
  | rangeEnd (i : Nat)

/-- The clock shows 10; a prune removes half. -/
def execNow : Int := 10
def execMc : Int → Int := fun c => c / 2

theorem floor_half (c : Int) : ((c : Rat) * (1 / 2)).floor = c / 2 := by
  have h1 : c / 2 ≤ ((c : Rat) * (1 / 2)).floor := by
    rw [Rat.le_floor_iff]
    have : (c / 2) * 2 ≤ c := by omega
    have : ((c / 2 * 2 : Int) : Rat) ≤ c := Rat.intCast_le_intCast.2 this
    rw [Rat.intCast_mul] at this
    grind
  have h2 : ((c : Rat) * (1 / 2)).floor < c / 2 + 1 := by
    rw [Rat.floor_lt_iff]
    have : c < (c / 2 + 1) * 2 := by omega
    have : (c : Rat) < ((c / 2 + 1) * 2 : Int) := Rat.intCast_lt_intCast.2 this
    rw [Rat.intCast_mul] at this
    grind
  omega

/-- Half is what the consultant asks for when the heap uses 50% of the memory and
25% are allowed. -/
theorem execMc_eq (c : Int) : execMc c = quantityToPrune 25 50 100 c := by
  unfold execMc quantityToPrune
  simp only
  have h1 : (((50 * 100 % 2 ^ 64 : Nat) : Rat) / ((100 : Nat) : Rat)) = 50 := by decide +kernel
  rw [h1, if_pos (by decide +kernel)]
  have h2 : ((50 : Rat) - 25) / 50 = 1 / 2 := by decide +kernel
  rw [h2]
  exact (floor_half c).symm

def unlocked (s : Conc) (a : Nat) : Option Storage :=
  match s.heap[a]? with
  | some ⟨st, false⟩ => some st
  | _ => none

theorem unlocked_some {s : Conc} {a : Nat} {st : Storage} (h : unlocked s a = some st) :
    s.heap[a]? = some { storage := st } := by
  unfold unlocked at h
  split at h
  · cases h; assumption
  · cases h

def execPrune2 (s : Conc) (i n : Nat) (h : ExpHeap) (ptrs : List (Str × Nat)) : Option (List Ev × Conc) :=
  match n with
  | 0 => some ([.ret i], s.pruneEnd i h execNow)
  | n + 1 =>
    match h.pop with
    | none => some ([.panic i .emptyHeap], { s with crashed := true })
    | some (x, h') =>
      match ptrs.lookup x.sourceId with
      | none => none
      | some a =>
        match unlocked s a with
        | none => none
        | some st =>
          match st.tree.left with
          | none => some ([], s.goto i (.prune2 n h' ptrs))
          | some (k, _) =>
            match (st.tree.remove k).left with
            | none => some ([.dropped i x.sourceId],
                { s with g := { s.g with count := s.g.count - 1, expired := s.g.expired + 1 },
                         heap := s.heap.set a { storage := { st with tree := st.tree.remove k } },
                         index := s.index.filter (fun p => p.1 ≠ x.sourceId) }.goto i (.prune2 n h' ptrs))
            | some (k', _) => some ([],
                { s with g := { s.g with count := s.g.count - 1, expired := s.g.expired + 1 },
                         heap := s.heap.set a { storage := { st with tree := st.tree.remove k, info :=
                           { st.info with expired := st.info.expired + 1, oldest := k' } } } }.goto i
                  (.prune2 n (h'.push ⟨k', x.sourceId⟩) ptrs))

theorem execPrune2_sound {s s' : Conc} {i n : Nat} {h : ExpHeap} {ptrs : List (Str × Nat)} {evs : List Ev}
    (ht : s.threads[i]? = some (.prune2 n h ptrs)) (hc : s.crashed = false)
    (he : execPrune2 s i n h ptrs = some (evs, s')) : CStep s evs s' := by
  unfold execPrune2 at he
  cases n with
  | zero => simp only at he; cases he; exact .pruneEnd _ ht hc
  | succ n =>
    simp only at he
    cases hpop : h.pop with
    | none => rw [hpop] at he; cases he; exact .prunePopCrash ht hpop hc
    | some p =>
      obtain ⟨x, h'⟩ := p
      rw [hpop] at he; simp only at he
      cases ha : ptrs.lookup x.sourceId with
      | none => rw [ha] at he; cases he
      | some a =>
        rw [ha] at he; simp only at he
        cases ho : unlocked s a with
        | none => rw [ho] at he; cases he
        | some st =>
          rw [ho] at he; simp only at he
          replace ho := unlocked_some ho
          cases hl : st.tree.left with
          | none => rw [hl] at he; cases he; exact .prunePopNone ht hpop ha ho hl hc
          | some q =>
            obtain ⟨k, v⟩ := q
            rw [hl] at he; simp only at he
            cases hl' : (st.tree.remove k).left with
            | none => rw [hl'] at he; cases he; exact .prunePopLast ht hpop ha ho hl hl' hc
            | some q' =>
              obtain ⟨k', v'⟩ := q'
              rw [hl'] at he; cases he; exact .prunePopMore ht hpop ha ho hl hl' hc

def execGo (s : Conc) (i : Nat) : Option (List Ev × Conc) :=
  match s.threads[i]? with
  | some (.put1 src e) =>
    some ([], { (s.getOrInit src).1 with g := { s.g with ingress := s.g.ingress + 1 } }.goto i
      (.put2 src (s.getOrInit src).2 e))
  | some (.put2 src a e) =>
    match unlocked s a with
    | none => none
    | some st =>
      match insertOrSwap s.cfg execNow s.g st e with
      | none => none
      | some (g', st') =>
        some ([.commit i src e execNow],
          { s with heap := s.heap.set a { storage := st', locked := true },
                   g := { g' with oldest := s.g.oldest, cachePeriod := s.g.cachePeriod } }.goto i
            (.put3 a st'.info.oldest s.g.oldest execNow))
  | some (.put3 a oldest loaded now) =>
    match s.heap[a]? with
    | none => none
    | some o =>
      some ([.ret i],
        { s with heap := s.heap.set a { o with locked := false },
                 g := { s.g with oldest := if oldest < loaded then oldest else s.g.oldest,
                                 cachePeriod := calculateCachePeriod now
                                   (if oldest < loaded then oldest else loaded) } }.goto i .done)
  | some (.get1 src a) =>
    match s.index.lookup src with
    | none => some ([.read i src a [], .ret i], s.goto i .done)
    | some b => some ([], s.goto i (.get2 src b a))
  | some (.get2 src b a) =>
    match unlocked s b with
    | none => none
    | some st =>
      match getTree st.tree a with
      | none => some ([.panic i .unknownType], { s with crashed := true })
      | some res => some ([.read i src a res, .ret i],
          { s with g := { s.g with egress := s.g.egress + res.length } }.goto i .done)
  | some .meta0 => some ([], s.goto i (.meta1 [] s.index))
  | some (.meta2 [] acc) => some ([.metaRes i acc, .ret i], s.goto i .done)
  | some (.meta2 ((k, info) :: todo) acc) =>
    match s.index.lookup k with
    | none => some ([.panic i (.goneSource k)], { s with crashed := true })
    | some a =>
      match unlocked s a with
      | none => none
      | some st => some ([], s.goto i (.meta2 todo (acc ++ [(k, { info with count := st.tree.size })])))
  | some .prune0 =>
    if execMc s.g.count = 0 then some ([.ret i], s.goto i .done)
    else some ([.pruning i (if execMc s.g.count > s.g.count then s.g.count else execMc s.g.count).toNat],
      s.goto i (.prune1 (if execMc s.g.count > s.g.count then s.g.count else execMc s.g.count).toNat [] [] s.index))
  | some (.prune2 n h ptrs) => execPrune2 s i n h ptrs
  | _ => none

theorem execGo_sound {s s' : Conc} {i : Nat} {evs : List Ev} (hc : s.crashed = false)
    (he : execGo s i = some (evs, s')) : CStep s evs s' := by
  unfold execGo at he
  split at he
  · next src e ht => cases he; exact .putLookup ht hc
  · next src a e ht =>
    cases ho : unlocked s a with
    | none => rw [ho] at he; cases he
    | some st =>
      rw [ho] at he; simp only at he
      cases hi : insertOrSwap s.cfg execNow s.g st e with
      | none => rw [hi] at he; cases he
      | some r =>
        obtain ⟨g', st'⟩ := r
        rw [hi] at he; cases he
        exact .putInsert execNow ht (unlocked_some ho) hi hc
  · next a oldest loaded now ht =>
    cases ho : s.heap[a]? with
    | none => rw [ho] at he; cases he
    | some o => rw [ho] at he; cases he; exact .putFinish ht ho hc
  · next src a ht =>
    cases hx : s.index.lookup src with
    | none => rw [hx] at he; cases he; exact .getMiss ht hx hc
    | some b => rw [hx] at he; cases he; exact .getHit ht hx hc
  · next src b a ht =>
    cases ho : unlocked s b with
    | none => rw [ho] at he; cases he
    | some st =>
      rw [ho] at he; simp only at he
      cases hg : getTree st.tree a with
      | none => rw [hg] at he; cases he; exact .getCrash ht (unlocked_some ho) hg hc
      | some res => rw [hg] at he; cases he; exact .getRead ht (unlocked_some ho) hg hc
  · next ht => cases he; exact .metaStart ht hc
  · next acc ht => cases he; exact .metaEnd ht hc
  · next k info todo acc ht =>
    cases hx : s.index.lookup k with
    | none => rw [hx] at he; cases he; exact .metaCrash ht hx hc
    | some a =>
      rw [hx] at he; simp only at he
      cases ho : unlocked s a with
      | none => rw [ho] at he; cases he
      | some st => rw [ho] at he; cases he; exact .metaCount ht hx (unlocked_some ho) hc
  · next ht =>
    split at he
    · next hn => cases he; exact .pruneNothing execMc ht hn hc
    · next hn => cases he; exact .pruneStart execMc ht hn hc
  · next n h ptrs ht => exact execPrune2_sound ht hc he
  · cases he

def execVisit (s : Conc) (i : Nat) (k : Str) : Option (List Ev × Conc) :=
  match s.index.lookup k with
  | none => none
  | some a =>
    match unlocked s a with
    | none => none
    | some st =>
      match s.threads[i]? with
      | some (.meta1 seen start) =>
        if k ∈ seen.map Prod.fst then none else some ([], s.goto i (.meta1 (seen ++ [(k, st.info)]) start))
      | some (.prune1 n h ptrs start) =>
        if k ∈ ptrs.map Prod.fst then none
        else match st.tree.left with
          | some (ts, _) => some ([], s.goto i (.prune1 n (h.push ⟨ts, k⟩) (ptrs ++ [(k, a)]) start))
          | none => some ([.panic i (.emptySource k)], { s with crashed := true })
      | _ => none

theorem execVisit_sound {s s' : Conc} {i : Nat} {k : Str} {evs : List Ev} (hc : s.crashed = false)
    (he : execVisit s i k = some (evs, s')) : CStep s evs s' := by
  unfold execVisit at he
  cases hx : s.index.lookup k with
  | none => rw [hx] at he; cases he
  | some a =>
    rw [hx] at he; simp only at he
    cases ho : unlocked s a with
    | none => rw [ho] at he; cases he
    | some st =>
      rw [ho] at he; simp only at he
      split at he
      · next seen start ht =>
        split at he
        · cases he
        · next hn => cases he; exact .metaVisit ht (lookup_mem hx) hn (unlocked_some ho) hc
      · next n h ptrs start ht =>
        split at he
        · cases he
        · next hn =>
          split at he
          · next ts v hl => cases he; exact .pruneVisit ht (lookup_mem hx) hn (unlocked_some ho) hl hc
          · next hl => cases he; exact .pruneVisitCrash ht (lookup_mem hx) hn (unlocked_some ho) hl hc
      · cases he

def execRangeEnd (s : Conc) (i : Nat) : Option (List Ev × Conc) :=
  match s.threads[i]? with
  | some (.meta1 seen start) =>
    if ∀ p ∈ start, p ∈ s.index → p.1 ∈ seen.map Prod.fst then some ([], s.goto i (.meta2 seen [])) else none
  | some (.prune1 n h ptrs start) =>
    if ∀ p ∈ start, p ∈ s.index → p.1 ∈ ptrs.map Prod.fst then some ([], s.goto i (.prune2 n h ptrs)) else none
  | _ => none

theorem execRangeEnd_sound {s s' : Conc} {i : Nat} {evs : List Ev} (hc : s.crashed = false)
    (he : execRangeEnd s i = some (evs, s')) : CStep s evs s' := by
  unfold execRangeEnd at he
  split at he
  · next seen start ht =>
    split at he
    · next hn => cases he; exact .metaRangeEnd ht (fun k a h1 h2 => hn (k, a) h1 h2) (.refl _) hc
    · cases he
  · next n h ptrs start ht =>
    split at he
    · next hn => cases he; exact .pruneRangeEnd ht (fun k a h1 h2 => hn (k, a) h1 h2) hc
    · cases he
  · cases he

def Call.isPrune : Call → Bool
  | .prune => true
  | _ => false

def exec (s : Conc) (m : Move) : Option (List Ev × Conc) :=
  if s.crashed then none
  else match m with
    | .call c =>
      if c.isPrune && s.threads.any Thread.isPrune then none
      else some ([.call s.threads.length c], { s with threads := s.threads ++ [c.start] })
    | .go i => execGo s i
    | .visit i k => execVisit s i k
    | .rangeEnd i => execRangeEnd s i

theorem exec_sound {s s' : Conc} {m : Move} {evs : List Ev} (he : exec s m = some (evs, s')) : CStep s evs s' := by
  unfold exec at he
  split at he
  · cases he
  · next hc =>
    replace hc : s.crashed = false := by simpa using hc
    cases m with
    | call c =>
      simp only at he
      split at he
      · cases he
      · next hp =>
        cases he
        refine .call c ?_ hc
        rintro rfl t ht
        simp only [Call.isPrune, Bool.true_and, Bool.not_eq_true, List.any_eq_false] at hp
        simpa using hp t ht
    | go i => exact execGo_sound hc he
    | visit i k => exact execVisit_sound hc he
    | rangeEnd i => exact execRangeEnd_sound hc he

def execFrom (evs : List Ev) (s : Conc) : List Move → Option (List Ev × Conc)
  | [] => some (evs, s)
  | m :: ms =>
    match exec s m with
    | none => none
    | some (evs', s') => execFrom (evs ++ evs') s' ms

theorem execFrom_sound {cfg : Config} {ms : List Move} {evs evs' : List Ev} {s s' : Conc} (h : CRun cfg evs s)
    (he : execFrom evs s ms = some (evs', s')) : CRun cfg evs' s' := by
  induction ms generalizing evs s with
  | nil => cases he; exact h
  | cons m ms ih =>
    unfold execFrom at he
    split at he
    · cases he
    · next hx => exact ih (h.step (exec_sound hx)) he

/-- The run of a schedule; the empty run if the schedule is impossible. -/
def execRun (cfg : Config) (ms : List Move) : List Ev × Conc :=
  match execFrom [] { cfg := cfg } ms with
  | some r => r
  | none => ([], { cfg := cfg })

theorem execRun_sound (cfg : Config) (ms : List Move) : CRun cfg (execRun cfg ms).1 (execRun cfg ms).2 := by
  unfold execRun
  split
  · next r h => exact execFrom_sound .nil h
  · exact .nil

end LogCache
