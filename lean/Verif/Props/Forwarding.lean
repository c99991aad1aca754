import Mathlib.Data.Fintype.Pigeonhole
import Verif.Props.Cluster
/-!
# When Reads are forwarded for ever (C36); what the owners store (C35)
-/
namespace LogCache
open Spec

/-! ### C36 -/

/-- Node `j` may pass a Read of `id` on to node `i`: by its own table it is no owner, and
`i` is one. -/
def Spec.Forwards (lk : Nat → Str → List Nat) (id : Str) (j i : Nat) : Prop :=
  j ∉ lk j id ∧ i ∈ lk j id

/-- A Read of `id` at node `j` may be passed on `n` times and then be at node `k`. -/
def Spec.MayReach (lk : Nat → Str → List Nat) (id : Str) (j n k : Nat) : Prop :=
  ∃ f : Nat → Nat, f 0 = j ∧ f n = k ∧ ∀ i < n, Forwards lk id (f i) (f (i + 1))

theorem egress_forwards {lk : Nat → Str → List Nat} {id : Str} {j i rnd : Nat}
    (h : egressRoute (lk j) j id rnd = some i) (hne : i ≠ j) : Forwards lk id j i := by
  unfold egressRoute at h
  simp only at h
  split at h
  · cases h
  · split at h
    · rename_i hmem; cases h; exact absurd rfl hne
    · rename_i hmem; exact ⟨hmem, List.mem_of_getElem? h⟩

theorem egress_self {lk : Nat → Str → List Nat} {id : Str} {j rnd : Nat}
    (h : egressRoute (lk j) j id rnd = some j) : j ∈ lk j id := by
  unfold egressRoute at h
  simp only at h
  split at h
  · cases h
  · split at h
    · assumption
    · exact List.mem_of_getElem? h

theorem mayReach_cons {lk : Nat → Str → List Nat} {id : Str} {j i n k : Nat} (h : Forwards lk id j i)
    (h' : MayReach lk id i n k) : MayReach lk id j (n + 1) k := by
  obtain ⟨f, h0, hn, hf⟩ := h'
  refine ⟨fun x => match x with | 0 => j | x + 1 => f x, rfl, hn, ?_⟩
  intro x hx
  cases x with
  | zero => simpa [h0] using h
  | succ x => exact hf x (by omega)

/-- How often a Read is forwarded and who answers it: a Read that is answered or refused
after `hops` forwards went along a chain of nodes that each are no owner by their own table
and have the next one as an owner; the last one is an owner by its own table and answers, or
it knows no owner and refuses.  Every such chain occurs. -/
theorem C36_chain (lk : Nat → Str → List Nat) (id : Str) (j hops : Nat) (r : Option Nat) :
    ReadAt lk id j hops r ↔ ∃ k, MayReach lk id j hops k ∧
      ((r = none ∧ lk k id = []) ∨ (r = some k ∧ k ∈ lk k id)) := by
  constructor
  · intro h
    induction h with
    | @refused j rnd h hr =>
      refine ⟨j, ⟨fun _ => j, rfl, rfl, fun i hi => by omega⟩, Or.inl ⟨rfl, ?_⟩⟩
      exact ((C34_read_owner (lk j) j id hr).1).1 h
    | @here j rnd h hr =>
      exact ⟨j, ⟨fun _ => j, rfl, rfl, fun i hi => by omega⟩, Or.inr ⟨rfl, egress_self h⟩⟩
    | @forward j i rnd hops r h hne hr _ ih =>
      obtain ⟨k, hk, hend⟩ := ih
      exact ⟨k, mayReach_cons (egress_forwards h hne) hk, hend⟩
  · rintro ⟨k, ⟨f, h0, hn, hf⟩, hend⟩
    induction hops generalizing j f with
    | zero =>
      have hjk : j = k := by rw [← h0, ← hn]
      subst hjk
      rcases hend with ⟨rfl, hnil⟩ | ⟨rfl, hmem⟩
      · exact .refused (rnd := 0) (by simp [egressRoute, hnil]) (Or.inl hnil)
      · have hlen : 0 < (lk j id).length := List.length_pos_of_mem hmem
        exact .here (rnd := 0) ((C34_read_owner (lk j) j id (Or.inr hlen)).2.2 hmem) (Or.inr hlen)
    | succ n ih =>
      have hfw := hf 0 (by omega)
      rw [h0] at hfw
      obtain ⟨rnd, hlt, hr⟩ := C34_read_any_owner (lk j) j id hfw.1 _ hfw.2
      refine .forward hr ?_ (Or.inr hlt) (ih _ (fun x => f (x + 1)) rfl hn (fun i hi => hf (i + 1) (by omega)))
      intro he
      exact hfw.1 (he ▸ hfw.2)

/-- A node of `n` comes up twice on a chain of `n` forwards. -/
theorem chain_repeats {lk : Nat → Str → List Nat} {id : Str} {n : Nat}
    (hb : ∀ j i, i ∈ lk j id → i < n) {f : Nat → Nat} (h0 : f 0 < n)
    (hf : ∀ i < n, Forwards lk id (f i) (f (i + 1))) :
    ∃ a m b, a + b ≤ n ∧ 0 < b ∧ f a = m ∧ f (a + b) = m := by
  have hlt : ∀ i : Fin (n + 1), f i < n := by
    rintro ⟨i, hi⟩
    cases i with
    | zero => exact h0
    | succ i => exact hb _ _ (hf i (by omega)).2
  obtain ⟨x, y, hne, he⟩ := Fintype.exists_ne_map_eq_of_card_lt
    (fun i : Fin (n + 1) => (⟨f i, hlt i⟩ : Fin n)) (by simp)
  have he : f x = f y := by simpa using he
  have hne : (x : Nat) ≠ y := fun h => hne (Fin.ext h)
  have hx := x.isLt
  have hy := y.isLt
  rcases Nat.lt_or_ge (x : Nat) y with h | h
  · exact ⟨x, f x, y - x, by omega, by omega, rfl, by rw [show (x : Nat) + (y - x) = y by omega]; exact he.symm⟩
  · exact ⟨y, f y, x - y, by omega, by omega, rfl, by rw [show (y : Nat) + (x - y) = x by omega]; exact he⟩

/-- In a cluster of `n` nodes a Read that enters at node `j` can be passed on for ever
exactly if it can come back to a node it has been at. -/
theorem C36_forever_iff {lk : Nat → Str → List Nat} {id : Str} {n : Nat}
    (hb : ∀ j i, i ∈ lk j id → i < n) {j : Nat} (hj : j < n) :
    (∃ f : Nat → Nat, f 0 = j ∧ ∀ i, Forwards lk id (f i) (f (i + 1))) ↔
      ∃ a m b, MayReach lk id j a m ∧ 0 < b ∧ MayReach lk id m b m := by
  constructor
  · rintro ⟨f, h0, hf⟩
    obtain ⟨a, m, b, -, hb', h1, h2⟩ := chain_repeats hb (f := f) (by rw [h0]; exact hj) (fun i _ => hf i)
    exact ⟨a, m, b, ⟨f, h0, h1, fun i _ => hf i⟩, hb', ⟨fun x => f (a + x), h1, h2, fun i _ => hf (a + i)⟩⟩
  · rintro ⟨a, m, b, ⟨g, g0, ga, hg⟩, hb', ⟨h, h0, hbm, hh⟩⟩
    refine ⟨fun i => if i < a then g i else h ((i - a) % b), ?_, ?_⟩
    · by_cases ha : 0 < a
      · simp [ha, g0]
      · have ha0 : a = 0 := by omega
        subst ha0
        simp only [Nat.lt_irrefl, if_false, Nat.sub_zero, Nat.zero_mod]
        rw [h0, ← ga, g0]
    · intro i
      have hstep : ∀ x, Forwards lk id (h (x % b)) (h ((x + 1) % b)) := by
        intro x
        have hx := Nat.mod_lt x hb'
        by_cases hlast : x % b + 1 = b
        · have : (x + 1) % b = 0 := by
            rw [Nat.add_mod]
            rcases Nat.lt_or_ge 1 b with h1 | h1
            · rw [Nat.mod_eq_of_lt h1, hlast, Nat.mod_self]
            · have : b = 1 := by omega
              subst this; exact Nat.mod_one _
          rw [this, h0]
          have := hh (x % b) hx
          rw [hlast, hbm] at this
          exact this
        · have : (x + 1) % b = x % b + 1 := by
            rw [Nat.add_mod, Nat.mod_eq_of_lt (a := 1) (by omega), Nat.mod_eq_of_lt (by omega)]
          rw [this]
          exact hh _ hx
      beta_reduce
      by_cases hi : i + 1 < a
      · rw [if_pos (by omega), if_pos hi]; exact hg i (by omega)
      · by_cases hia : i < a
        · rw [if_pos hia, if_neg hi, show i + 1 - a = 0 by omega, Nat.zero_mod, h0, ← ga,
            show a = i + 1 by omega]
          exact hg i hia
        · rw [if_neg hia, if_neg hi, show i + 1 - a = (i - a) + 1 by omega]
          exact hstep _

/-- If a Read cannot come back to a node it has been at, it is answered or refused after
fewer forwards than there are nodes, whatever the tables.  Missing for the full property:
tables that send it round, where it is false (`C36_terminates_false`, `C36_forever_iff`). -/
theorem C36_acyclic_partial {lk : Nat → Str → List Nat} {id : Str} {n : Nat}
    (hb : ∀ j i, i ∈ lk j id → i < n) {j : Nat} (hj : j < n)
    (hac : ∀ a m b, MayReach lk id j a m → MayReach lk id m b m → b = 0) :
    (∃ hops r, ReadAt lk id j hops r) ∧ ∀ hops r, ReadAt lk id j hops r → hops < n := by
  constructor
  · apply Classical.byContradiction
    intro hno
    have hstep : ∀ m, (¬ ∃ hops r, ReadAt lk id m hops r) →
        Forwards lk id m ((lk m id).headD 0) ∧ ¬ ∃ hops r, ReadAt lk id ((lk m id).headD 0) hops r := by
      intro m hm
      have hnil : lk m id ≠ [] := fun h => hm ⟨0, none, (C36_chain lk id m 0 none).2
        ⟨m, ⟨fun _ => m, rfl, rfl, fun i hi => by omega⟩, Or.inl ⟨rfl, h⟩⟩⟩
      have hself : m ∉ lk m id := fun h => hm ⟨0, some m, (C36_chain lk id m 0 (some m)).2
        ⟨m, ⟨fun _ => m, rfl, rfl, fun i hi => by omega⟩, Or.inr ⟨rfl, h⟩⟩⟩
      have hfw : Forwards lk id m ((lk m id).headD 0) := by
        refine ⟨hself, ?_⟩
        cases hl : lk m id with
        | nil => exact absurd hl hnil
        | cons x t => simp
      refine ⟨hfw, ?_⟩
      rintro ⟨hops, r, hr⟩
      obtain ⟨k, hk, hend⟩ := (C36_chain lk id _ hops r).1 hr
      exact hm ⟨hops + 1, r, (C36_chain lk id m _ r).2 ⟨k, mayReach_cons hfw hk, hend⟩⟩
    let f : Nat → Nat := fun i => Nat.rec j (fun _ m => (lk m id).headD 0) i
    have hf : ∀ i, ¬ ∃ hops r, ReadAt lk id (f i) hops r := by
      intro i
      induction i with
      | zero => exact hno
      | succ i ih => exact (hstep _ ih).2
    obtain ⟨a, m, b, h1, h2, h3⟩ := (C36_forever_iff hb hj).1 ⟨f, rfl, fun i => (hstep _ (hf i)).1⟩
    have := hac a m b h1 h3
    omega
  · intro hops r h
    obtain ⟨k, ⟨f, h0, hn, hf⟩, -⟩ := (C36_chain lk id j hops r).1 h
    apply Classical.byContradiction
    intro hge
    obtain ⟨a, m, b, hab, hb', h1, h2⟩ := chain_repeats hb (f := f) (by rw [h0]; exact hj)
      (fun i hi => hf i (by omega))
    have := hac a m b ⟨f, h0, h1, fun i hi => hf i (by omega)⟩
      ⟨fun x => f (a + x), h1, h2, fun i hi => hf (a + i) (by omega)⟩
    omega

/-- The tables may well disagree: if every node that a table names is an owner by its own
table, a Read is forwarded at most once. -/
theorem C36_owners_agree_partial {lk : Nat → Str → List Nat} {id : Str}
    (ho : ∀ j i, i ∈ lk j id → i ∈ lk i id) (j : Nat) :
    (∃ hops r, ReadAt lk id j hops r) ∧ ∀ hops r, ReadAt lk id j hops r →
      hops ≤ 1 ∧ (r = none ↔ lk j id = []) := by
  have hone : ∀ f : Nat → Nat, ∀ n, (∀ i < n, Forwards lk id (f i) (f (i + 1))) → n ≤ 1 := by
    intro f n hf
    apply Classical.byContradiction
    intro hn
    exact (hf 1 (by omega)).1 (ho _ _ (hf 0 (by omega)).2)
  refine ⟨?_, ?_⟩
  · by_cases hnil : lk j id = []
    · exact ⟨0, none, (C36_chain lk id j 0 none).2
        ⟨j, ⟨fun _ => j, rfl, rfl, fun i hi => by omega⟩, Or.inl ⟨rfl, hnil⟩⟩⟩
    · by_cases hself : j ∈ lk j id
      · exact ⟨0, some j, (C36_chain lk id j 0 (some j)).2
          ⟨j, ⟨fun _ => j, rfl, rfl, fun i hi => by omega⟩, Or.inr ⟨rfl, hself⟩⟩⟩
      · obtain ⟨i, hi⟩ := List.exists_mem_of_ne_nil _ hnil
        exact ⟨1, some i, (C36_chain lk id j 1 (some i)).2 ⟨i, mayReach_cons ⟨hself, hi⟩
          ⟨fun _ => i, rfl, rfl, fun x hx => by omega⟩, Or.inr ⟨rfl, ho j i hi⟩⟩⟩
  · intro hops r h
    obtain ⟨k, ⟨f, h0, hn, hf⟩, hend⟩ := (C36_chain lk id j hops r).1 h
    have hle := hone f hops hf
    refine ⟨hle, ?_⟩
    rcases Nat.eq_zero_or_pos hops with h0' | hpos
    · subst h0'
      have hjk : j = k := by rw [← h0, ← hn]
      subst hjk
      rcases hend with ⟨rfl, hnil⟩ | ⟨rfl, hmem⟩
      · simp [hnil]
      · simp only [reduceCtorEq, false_iff]
        intro h'; rw [h'] at hmem; cases hmem
    · have h1 : hops = 1 := by omega
      subst h1
      have hfw := hf 0 (by omega)
      rw [h0, show 0 + 1 = 1 from rfl, hn] at hfw
      have hk := ho _ _ hfw.2
      constructor
      · rintro rfl
        rcases hend with ⟨-, hnil⟩ | ⟨h', -⟩
        · rw [hnil] at hk; cases hk
        · cases h'
      · intro hnil; have h2 := hfw.2; rw [hnil] at h2; cases h2

/-- Three nodes: the first two still send the Read on along a chain, the last owns it. -/
example : ∃ lk : Nat → Str → List Nat, (∀ j i, i ∈ lk j [] → i < 3) ∧
    (∀ a m b, MayReach lk [] 0 a m → MayReach lk [] m b m → b = 0) ∧ ReadAt lk [] 0 2 (some 2) := by
  refine ⟨fun j _ => if j = 0 then [1] else if j ≤ 2 then [2] else [], ?_, ?_, ?_⟩
  · intro j i h
    simp only at h
    split at h
    · simp at h; omega
    · split at h <;> simp at h; omega
  · rintro a m b - ⟨f, h0, hb, hf⟩
    have hup : ∀ i, i ≤ b → f 0 + i ≤ f i := by
      intro i
      induction i with
      | zero => intro _; simp
      | succ i ih =>
        intro hi
        have := ih (by omega)
        have h := hf i (by omega)
        unfold Forwards at h
        simp only at h
        split at h
        · simp at h; omega
        · split at h <;> simp at h; omega
    have := hup b (Nat.le_refl _)
    omega
  · exact .forward (rnd := 0) (i := 1) rfl (by decide) (Or.inr (by decide))
      (.forward (rnd := 0) (i := 2) rfl (by decide) (Or.inr (by decide))
        (.here (rnd := 0) rfl (Or.inr (by decide))))

/-- Two nodes that name each other: a Read comes back after two forwards. -/
example : ∃ lk : Nat → Str → List Nat, (∀ j i, i ∈ lk j [] → i < 2) ∧ MayReach lk [] 0 2 0 := by
  refine ⟨fun j _ => if j = 0 then [1] else [0], ?_, fun i => i % 2, rfl, rfl, ?_⟩
  · intro j i h
    simp only at h
    split at h <;> simp at h <;> omega
  · intro i hi
    rcases (by omega : i = 0 ∨ i = 1) with rfl | rfl <;> simp [Forwards]

/-- Different tables: node 0 sends the source to node 1, node 2 keeps it. -/
example : ∃ lk : Nat → Str → List Nat, (∀ j i, i ∈ lk j [] → i ∈ lk i []) ∧ lk 0 [] ≠ lk 2 [] ∧
    ReadAt lk [] 0 1 (some 1) := by
  refine ⟨fun j _ => if j = 2 then [2] else [1], ?_, by decide, ?_⟩
  · intro j i h
    simp only at h ⊢
    split at h <;> simp at h <;> subst h <;> simp
  · exact .forward (rnd := 0) (i := 1) rfl (by decide) (Or.inr (by decide))
      (.here (rnd := 0) rfl (Or.inr (by decide)))

/-! ### C35 -/

theorem makeRoom_below {max : Int} {L : List (Int × Envelope)} (h : (L.length : Int) < max) :
    makeRoom max L = L := by
  unfold makeRoom; rw [if_neg (by omega)]

/-- Below capacity, without prunes and uncrowded, exactly what was put is stored. -/
theorem sparse_storage {cfg : Config} (hc : 1 ≤ cfg.maxPerSource) {ops : List Op} {st : Store}
    (h : Run (newStore cfg) ops st) (hn : NoPrune ops) (src : Str)
    (hsp : Sparse cfg.maxFudge (putsOf ops src)) (hlen : ((putsOf ops src).length : Int) ≤ cfg.maxPerSource) :
    (st.envelopes src).Perm (putsOf ops src) := by
  revert hn hsp hlen
  refine run_induct hc (P := fun ops st => NoPrune ops → Sparse cfg.maxFudge (putsOf ops src) →
    ((putsOf ops src).length : Int) ≤ cfg.maxPerSource → (st.envelopes src).Perm (putsOf ops src)) ?_ ?_ h
  · intro _ _ _; exact List.Perm.refl _
  · intro ops st op st' hr hi hcfg ih hv hx hn hsp hlen
    have hn' : NoPrune ops := fun o ho => hn o (by simp [ho])
    rw [putsOf_append] at hsp hlen ⊢
    have ih := ih hn' (sparse_prefix hsp) (by rw [List.length_append] at hlen; omega)
    cases op with
    | put now s e =>
      rw [putsOf_put] at hsp hlen ⊢
      by_cases hs : s = src
      · subst hs
        rw [if_pos rfl] at hsp hlen ⊢
        have hl : (st.entries s).length = (putsOf ops s).length := by
          rw [← ih.length_eq]; simp [Store.envelopes]
        have hl2 : (st.envelopes s).length = (st.entries s).length := by simp [Store.envelopes]
        have hlt : ((st.entries s).length : Int) < cfg.maxPerSource := by
          rw [List.length_append] at hlen; simp at hlen; omega
        have how := not_overwrites_of_sparse hc hr hsp
        unfold overwrites at how
        rw [makeRoom_below hlt] at how
        have hfree : ∃ i : Nat, i ≤ cfg.maxFudge ∧ e.timestamp + i ∉ keys (st.entries s) := by
          apply Classical.byContradiction
          intro hno
          apply how
          intro i hi'
          apply Classical.byContradiction
          intro hmem
          exact hno ⟨i, hi', hmem⟩
        obtain ⟨key, -, -, hperm⟩ := C07_put_keeps_all_partial hc hr (by omega) hfree hx
        have := hperm.map Prod.snd
        have hp : (st'.envelopes s).Perm (e :: st.envelopes s) := by simpa [Store.envelopes] using this
        exact hp.trans ((ih.cons e).trans (List.perm_append_singleton _ _).symm)
      · rw [if_neg hs, List.append_nil] 
        obtain ⟨f, hf⟩ := put_spec hi.idx hx
        unfold Store.envelopes at ih ⊢
        rw [entries_other hf (fun h => hs h.symm)]; exact ih
    | truncate now mc o =>
      have := hn _ (by simp : Op.truncate now mc o ∈ ops ++ [Op.truncate now mc o])
      cases this
    | get s a =>
      simp only [Op.exec, Option.some.injEq] at hx
      subst hx
      rw [putsOf_get, List.append_nil]
      unfold Store.envelopes at ih ⊢
      rw [entries_getState]; exact ih

/-- Whatever the timestamps (with fewer than 4002 of them within 4 microseconds): when all
nodes hold the table `L`, clients used plain Sends to any nodes, nothing was lost and
nothing is in flight, every owner of a source stores exactly the envelopes clients ever
sent for it, and nodes that are not owners store none. -/
theorem C35_stored {cfg : Config} (hc : 1 ≤ cfg.maxPerSource) {n : Nat}
    {L : Str → List Nat} {evs : List CEvent} {c : Cluster}
    (h : CRun (newCluster cfg n (fun _ => L)) evs c) (hr : Reliable evs)
    (hg : ∀ j req, CEvent.client j req ∈ evs → req.localOnly = false)
    (hq : ∀ j i, c.queue j i = []) {src : Str} (hLn : (L src).Nodup)
    (hsp : Sparse cfg.maxFudge (clientSent evs src))
    (hcap : ((clientSent evs src).length : Int) ≤ cfg.maxPerSource) (i : Nat) :
    ((c.store i).envelopes src).Perm (if i ∈ L src then clientSent evs src else []) := by
  obtain ⟨ops, hrun, hnp, hputs⟩ := crun_store h hr i
  have hpend : pending c i = [] := by
    unfold pending
    simp [hq]
  have hcons := crun_conserve h hr i
  rw [hpend, List.append_nil] at hcons
  have hp : (putsOf ops src).Perm (if i ∈ L src then clientSent evs src else []) := by
    rw [hputs]
    refine (hcons.filter _).trans ?_
    rw [destined_src L i evs hg src]
    by_cases hi : i ∈ L src
    · have := List.nodup_iff_count.1 hLn i
      have := List.count_pos_iff.2 hi
      rw [if_pos hi, show (L src).count i = 1 by omega, flatMap_replicate_one]
    · rw [if_neg hi, List.count_eq_zero.2 hi, flatMap_replicate_zero]
  have hsp' : Sparse cfg.maxFudge (putsOf ops src) := by
    intro e he
    rw [(hp.filter _).length_eq]
    have he' := hp.mem_iff.1 he
    by_cases hi : i ∈ L src
    · rw [if_pos hi] at he' ⊢; exact hsp e he'
    · rw [if_neg hi] at he'; cases he'
  refine (sparse_storage hc hrun hnp src hsp' ?_).trans hp
  rw [hp.length_eq]
  split
  · exact hcap
  · simp; omega

/-- Node 0 receives two envelopes with one timestamp and forwards them to the owner. -/
example : ∃ (c : Cluster) (evs : List CEvent),
    CRun (newCluster { maxPerSource := 5 } 2 (fun _ _ => [1])) evs c ∧ Reliable evs ∧
    (∀ j req, CEvent.client j req ∈ evs → req.localOnly = false) ∧ (∀ j i, c.queue j i = []) ∧
    clientSent evs [] = [logAt 3 "p", logAt 3 "q"] ∧ Sparse 4000 [logAt 3 "p", logAt 3 "q"] := by
  refine ⟨_, [] ++ [.client 0 { envelopes := some [logAt 3 "p", logAt 3 "q"] }] ++
      [.deliver 0 1 [logAt 3 "p", logAt 3 "q"]],
    CRun.snoc (CRun.snoc (CRun.nil _) (.client (by decide)
      ⟨fun _ => true, _, _, .proxied _ rfl [logAt 3 "p", logAt 3 "q"] rfl [(1, [logAt 3 "p", logAt 3 "q"])]
        (by decide), .nil _, rfl⟩))
      (.deliver (rest := []) (by decide) (by decide) (by decide) (by decide)
        ⟨fun _ => true, _, _, .localOnly _ rfl, .cons 0 rfl (.cons 0 rfl (.nil _)), rfl⟩), ?_, ?_, ?_, ?_, ?_⟩
  · intro ev hev
    simp at hev
    rcases hev with rfl | rfl <;> trivial
  · intro j req hev
    simp at hev
    rw [hev.2]
  · intro j i
    simp only [newCluster]
    by_cases h1 : j = 0 <;> by_cases h2 : i = 1 <;> by_cases h3 : j = 1 <;> by_cases h4 : i = 0 <;>
      simp_all [sentTo]
    all_goals (intro h; exact absurd h.symm h2)
  · decide
  · unfold Sparse; decide

end LogCache
