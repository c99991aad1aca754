import Verif.Model.Store
import Verif.Spec.Read
import Verif.Proof.Avl
/-! # Lemmas about the two traversals -/
namespace LogCache
open Spec

/-- The envelopes of a tree in storage (key) order. -/
def Tree.envs (t : Tree Envelope) : List Envelope := t.toList.map Prod.snd

theorem envs_node (l : Tree Envelope) (k : Int) (v : Envelope) (b : Int) (r : Tree Envelope) :
    (Tree.node l k v b r).envs = l.envs ++ v :: r.envs := by
  simp [Tree.envs, Tree.toList]

theorem envs_nil : (Tree.nil : Tree Envelope).envs = [] := rfl

/-- What the args allow out of a stored list. -/
def GetArgs.answer (a : GetArgs) (l : List Envelope) : List Envelope :=
  Spec.answer a.start a.stop a.types a.nameFilter l

theorem answer_append (a : GetArgs) (l l' : List Envelope) :
    a.answer (l ++ l') = a.answer l ++ a.answer l' := by
  simp [GetArgs.answer, Spec.answer]

theorem answer_nil (a : GetArgs) : a.answer [] = [] := rfl

theorem answer_cons (a : GetArgs) (e : Envelope) (l : List Envelope) :
    a.answer (e :: l) = a.answer [e] ++ a.answer l := answer_append a [e] l

theorem answer_out (a : GetArgs) {l : List Envelope}
    (h : ∀ e ∈ l, e.timestamp < a.start ∨ a.stop ≤ e.timestamp) : a.answer l = [] := by
  have : l.filter (inWindow a.start a.stop) = [] := by
    rw [List.filter_eq_nil_iff]
    intro e he
    rcases h e he with h | h <;> simp [inWindow] <;> omega
  simp [GetArgs.answer, Spec.answer, this]

theorem answer_single_in (a : GetArgs) {e : Envelope} (h1 : a.start ≤ e.timestamp)
    (h2 : e.timestamp < a.stop) :
    a.answer [e] = ((project a.nameFilter e).toList).filter (typeOk a.types) := by
  have : [e].filter (inWindow a.start a.stop) = [e] := by simp [inWindow, h1, h2]
  simp only [GetArgs.answer, Spec.answer, this]
  cases h : project a.nameFilter e <;> simp [List.filterMap, h]

theorem filterByName_eq (nf : Option (Str → Bool)) (e : Envelope) :
    filterByName nf e = project nf e := by
  cases nf with
  | none => rfl
  | some m =>
    obtain ⟨ts, src, inst, dt, tags, msg⟩ := e
    cases msg with
    | none => rfl
    | some msg =>
      cases msg with
      | log p e => rfl
      | counter n d t => simp [filterByName, project, names, restrict]
      | timer n d t => simp [filterByName, project, names, restrict]
      | event t b => rfl
      | gauge ms =>
        simp only [filterByName, project, names, restrict]
        have hiff : (ms.filter fun p => m p.1).length > 0 ↔ (ms.map Prod.fst).any m = true := by
          rw [gt_iff_lt, List.length_pos_iff]
          simp [List.any_eq_true]
        by_cases h : (ms.map Prod.fst).any m = true
        · rw [if_pos (hiff.2 h)]; exact (if_pos h).symm
        · rw [if_neg (fun hc => h (hiff.1 hc))]; exact (if_neg h).symm

theorem checkEnvelopeType_eq (e : Envelope) (t : EType) (b : Bool)
    (h : checkEnvelopeType e t = some b) : b = (decide (t = .any) || decide (kind e = some t)) := by
  obtain ⟨ts, src, inst, dt, tags, msg⟩ := e
  cases t <;> simp only [checkEnvelopeType] at h
  case other => cases h
  all_goals
    cases msg with
    | none => simp_all [kind]
    | some msg => cases msg <;> simp_all [kind]

theorem anyType_eq (e : Envelope) (ts : List EType) (b : Bool) (h : anyType e ts = some b) :
    b = typeOk (some ts) e := by
  induction ts generalizing b with
  | nil => simp [anyType] at h; simp [typeOk, h]
  | cons t ts ih =>
    simp only [anyType] at h
    cases hc : checkEnvelopeType e t with
    | none => rw [hc] at h; simp at h
    | some c =>
      have hc' := checkEnvelopeType_eq e t c hc
      rw [hc] at h
      cases c with
      | true =>
        simp at h; subst h
        rcases Bool.or_eq_true_iff.1 hc'.symm with h | h
        · have h := of_decide_eq_true h; subst h; simp [typeOk]
        · have h := of_decide_eq_true h; simp [typeOk, h]
      | false =>
        simp only at h
        rw [ih b h]
        have h := (Bool.or_eq_false_iff.1 hc'.symm)
        have h1 := of_decide_eq_false h.1
        have h2 := of_decide_eq_false h.2
        simp [typeOk, h2, Ne.symm h1]

theorem validEnvelopeType_eq (e : Envelope) (types : Option (List EType)) (b : Bool)
    (h : validEnvelopeType e types = some b) : b = typeOk types e := by
  cases types with
  | none => simp [validEnvelopeType] at h; simp [typeOk, h]
  | some ts => exact anyType_eq e ts b h

/-- All requested types are ones the server knows. -/
def knownTypes (types : Option (List EType)) : Prop :=
  ∀ ts, types = some ts → ∀ n, EType.other n ∉ ts

theorem validEnvelopeType_known {types : Option (List EType)} (h : knownTypes types)
    (e : Envelope) : validEnvelopeType e types = some (typeOk types e) := by
  have : ∃ b, validEnvelopeType e types = some b := by
    cases types with
    | none => exact ⟨true, rfl⟩
    | some ts =>
      replace h := h ts rfl
      simp only [validEnvelopeType]
      induction ts with
      | nil => exact ⟨false, rfl⟩
      | cons t ts ih =>
        have ih := ih (fun n hn => h n (by simp [hn]))
        have h0 : ∃ c, checkEnvelopeType e t = some c := by
          cases t <;> simp [checkEnvelopeType]
          rename_i n
          exact (h n (by simp))
        obtain ⟨c, hc⟩ := h0
        obtain ⟨b, hb⟩ := ih
        cases c <;> simp [anyType, hc, hb]
  obtain ⟨b, hb⟩ := this
  rw [hb, validEnvelopeType_eq e types b hb]

/-- One callback call on an envelope inside the window. -/
theorem callback_step (a : GetArgs) (res : List Envelope) (e : Envelope)
    (h1 : a.start ≤ e.timestamp) (h2 : e.timestamp < a.stop) :
    (getCallback a (some res) e).1 = none ∨
    ((getCallback a (some res) e).1 = some (res ++ a.answer [e]) ∧
      ((getCallback a (some res) e).2 = true → a.limit ≤ ((res ++ a.answer [e]).length : Int)) ∧
      ((getCallback a (some res) e).2 = false →
        a.limit ≤ ((res ++ a.answer [e]).length : Int) → a.answer [e] = [])) := by
  rw [answer_single_in a h1 h2]
  simp only [getCallback, filterByName_eq]
  cases hp : project a.nameFilter e with
  | none => simp
  | some e' =>
    simp only
    cases hv : validEnvelopeType e' a.types with
    | none => simp
    | some b =>
      have := validEnvelopeType_eq _ _ _ hv
      cases b
      · simp [← this]
      · simp [← this]

theorem callback_known (a : GetArgs) (hk : knownTypes a.types) (res : List Envelope)
    (e : Envelope) : (getCallback a (some res) e).1 ≠ none := by
  simp only [getCallback]
  cases filterByName a.nameFilter e with
  | none => simp
  | some e' =>
    simp only [validEnvelopeType_known hk]
    cases typeOk a.types e' <;> simp

/-! ## panics are absorbing; with known types there are none -/

theorem asc_none (a : GetArgs) (t : Tree Envelope) :
    (ascTraverse a.start a.stop (getCallback a) t none).1 = none := by
  induction t with
  | nil => rfl
  | node l k v b r ihl ihr =>
    simp only [ascTraverse]
    split
    · split
      · rename_i s heq; rw [heq] at ihl; exact ihl
      · rename_i s heq; rw [heq] at ihl; simp only at ihl; subst ihl
        have hi : (if v.timestamp ≥ a.stop then ((none : Option (List Envelope)), true)
          else getCallback a none v) = (none, true) := by split <;> rfl
        rw [hi]
        split
        · rfl
        · exact ihr
    · exact ihr

theorem desc_none (a : GetArgs) (t : Tree Envelope) :
    (descTraverse a.start a.stop (getCallback a) t none).1 = none := by
  induction t with
  | nil => rfl
  | node l k v b r ihl ihr =>
    simp only [descTraverse]
    split
    · split
      · rename_i s heq; rw [heq] at ihr; exact ihr
      · rename_i s heq; rw [heq] at ihr; simp only at ihr; subst ihr
        have hi : (if v.timestamp < a.start then ((none : Option (List Envelope)), true)
          else getCallback a none v) = (none, true) := by split <;> rfl
        rw [hi]
        split
        · rfl
        · exact ihl
    · exact ihl

theorem asc_known (a : GetArgs) (hk : knownTypes a.types) (t : Tree Envelope)
    (res : List Envelope) :
    ∃ res', (ascTraverse a.start a.stop (getCallback a) t (some res)).1 = some res' := by
  induction t generalizing res with
  | nil => exact ⟨res, rfl⟩
  | node l k v b r ihl ihr =>
    simp only [ascTraverse]
    split
    · obtain ⟨r1, h1⟩ := ihl res
      split
      · rename_i s heq; rw [heq] at h1; exact ⟨r1, h1⟩
      · rename_i s heq; rw [heq] at h1; simp only at h1; subst h1
        have hc : ∃ r2, (if v.timestamp ≥ a.stop then (some r1, true)
            else getCallback a (some r1) v).1 = some r2 := by
          split
          · exact ⟨r1, rfl⟩
          · exact Option.ne_none_iff_exists'.1 (callback_known a hk r1 v)
        obtain ⟨r2, h2⟩ := hc
        generalize (if v.timestamp ≥ a.stop then (some r1, true)
            else getCallback a (some r1) v) = C at h2 ⊢
        split
        · exact ⟨r2, h2⟩
        · rw [h2]; exact ihr r2
    · exact ihr res

theorem desc_known (a : GetArgs) (hk : knownTypes a.types) (t : Tree Envelope)
    (res : List Envelope) :
    ∃ res', (descTraverse a.start a.stop (getCallback a) t (some res)).1 = some res' := by
  induction t generalizing res with
  | nil => exact ⟨res, rfl⟩
  | node l k v b r ihl ihr =>
    simp only [descTraverse]
    split
    · obtain ⟨r1, h1⟩ := ihr res
      split
      · rename_i s heq; rw [heq] at h1; exact ⟨r1, h1⟩
      · rename_i s heq; rw [heq] at h1; simp only at h1; subst h1
        have hc : ∃ r2, (if v.timestamp < a.start then (some r1, true)
            else getCallback a (some r1) v).1 = some r2 := by
          split
          · exact ⟨r1, rfl⟩
          · exact Option.ne_none_iff_exists'.1 (callback_known a hk r1 v)
        obtain ⟨r2, h2⟩ := hc
        generalize (if v.timestamp < a.start then (some r1, true)
            else getCallback a (some r1) v) = C at h2 ⊢
        split
        · exact ⟨r2, h2⟩
        · rw [h2]; exact ihl r2
    · exact ihl res

/-! ## soundness on arbitrary trees -/

theorem asc_sound (a : GetArgs) (t : Tree Envelope) (res res' : List Envelope)
    (h : (ascTraverse a.start a.stop (getCallback a) t (some res)).1 = some res') :
    ∃ p, res' = res ++ p ∧ p.Sublist (a.answer t.envs) := by
  induction t generalizing res res' with
  | nil => simp [ascTraverse] at h; exact ⟨[], by simp [h], by simp⟩
  | node l k v b r ihl ihr =>
    rw [envs_node, answer_append, answer_cons]
    simp only [ascTraverse] at h
    split at h
    · rename_i hge
      split at h
      · rename_i s heq
        subst h
        obtain ⟨p, hp, hs⟩ := ihl res res' (by rw [heq])
        exact ⟨p, hp, hs.trans (List.sublist_append_left _ _)⟩
      · rename_i s heq
        cases s with
        | none =>
          exfalso
          have hn : ∀ x : Option (List Envelope) × Bool, x.1 = none →
              (if (x.2 && !isFudgeMember k v r) = true then (x.1, true)
                else ascTraverse a.start a.stop (getCallback a) r x.1).1 = none := by
            intro x hx; split
            · exact hx
            · rw [hx]; exact asc_none a r
          rw [hn _ (by split <;> rfl)] at h; cases h
        | some r1 =>
          obtain ⟨p1, hp1, hs1⟩ := ihl res r1 (by rw [heq])
          have hc : (if v.timestamp ≥ a.stop then (some r1, true)
                else getCallback a (some r1) v).1 = none ∨
              ∃ q, (if v.timestamp ≥ a.stop then (some r1, true)
                else getCallback a (some r1) v).1 = some (r1 ++ q) ∧ q.Sublist (a.answer [v]) := by
            split
            · exact Or.inr ⟨[], by simp, by simp⟩
            · rename_i hlt
              rcases callback_step a r1 v hge (by omega) with h | ⟨h, -⟩
              · exact Or.inl h
              · exact Or.inr ⟨_, h, List.Sublist.refl _⟩
          generalize (if v.timestamp ≥ a.stop then (some r1, true)
            else getCallback a (some r1) v) = C at hc h
          rcases hc with hc | ⟨q, hq, hsq⟩
          · rw [hc] at h
            split at h
            · cases h
            · rw [asc_none] at h; cases h
          · rw [hq] at h
            split at h
            · cases h
              refine ⟨p1 ++ q, by simp [hp1], ?_⟩
              exact hs1.append (hsq.trans (List.sublist_append_left _ _))
            · obtain ⟨p2, hp2, hs2⟩ := ihr _ _ h
              refine ⟨p1 ++ (q ++ p2), by simp [hp1, hp2], ?_⟩
              exact hs1.append (hsq.append hs2)
    · obtain ⟨p, hp, hs⟩ := ihr _ _ h
      exact ⟨p, hp, (hs.trans (List.sublist_append_right _ _)).trans
        (List.sublist_append_right _ _)⟩

theorem desc_sound (a : GetArgs) (t : Tree Envelope) (res res' : List Envelope)
    (h : (descTraverse a.start a.stop (getCallback a) t (some res)).1 = some res') :
    ∃ p, res' = res ++ p ∧ p.Sublist (a.answer t.envs.reverse) := by
  induction t generalizing res res' with
  | nil => simp [descTraverse] at h; exact ⟨[], by simp [h], by simp⟩
  | node l k v b r ihl ihr =>
    rw [envs_node, List.reverse_append, List.reverse_cons, List.append_assoc, answer_append,
      answer_append]
    simp only [descTraverse] at h
    split at h
    · rename_i hge
      split at h
      · rename_i s heq
        subst h
        obtain ⟨p, hp, hs⟩ := ihr res res' (by rw [heq])
        exact ⟨p, hp, hs.trans (List.sublist_append_left _ _)⟩
      · rename_i s heq
        cases s with
        | none =>
          exfalso
          have hn : ∀ x : Option (List Envelope) × Bool, x.1 = none →
              (if (x.2 && !isFudgeMember k v l) = true then (x.1, true)
                else descTraverse a.start a.stop (getCallback a) l x.1).1 = none := by
            intro x hx; split
            · exact hx
            · rw [hx]; exact desc_none a l
          rw [hn _ (by split <;> rfl)] at h; cases h
        | some r1 =>
          obtain ⟨p1, hp1, hs1⟩ := ihr res r1 (by rw [heq])
          have hc : (if v.timestamp < a.start then (some r1, true)
                else getCallback a (some r1) v).1 = none ∨
              ∃ q, (if v.timestamp < a.start then (some r1, true)
                else getCallback a (some r1) v).1 = some (r1 ++ q) ∧ q.Sublist (a.answer [v]) := by
            split
            · exact Or.inr ⟨[], by simp, by simp⟩
            · rename_i hlt
              rcases callback_step a r1 v (by omega) hge with h | ⟨h, -⟩
              · exact Or.inl h
              · exact Or.inr ⟨_, h, List.Sublist.refl _⟩
          generalize (if v.timestamp < a.start then (some r1, true)
            else getCallback a (some r1) v) = C at hc h
          rcases hc with hc | ⟨q, hq, hsq⟩
          · rw [hc] at h
            split at h
            · cases h
            · rw [desc_none] at h; cases h
          · rw [hq] at h
            split at h
            · cases h
              refine ⟨p1 ++ q, by simp [hp1], ?_⟩
              exact hs1.append (hsq.trans (List.sublist_append_left _ _))
            · obtain ⟨p2, hp2, hs2⟩ := ihl _ _ h
              refine ⟨p1 ++ (q ++ p2), by simp [hp1, hp2], ?_⟩
              exact hs1.append (hsq.append hs2)
    · obtain ⟨p, hp, hs⟩ := ihl _ _ h
      exact ⟨p, hp, (hs.trans (List.sublist_append_right _ _)).trans
        (List.sublist_append_right _ _)⟩

/-! ## completeness when timestamps are monotone in storage order -/

/-- Timestamps never decrease along the list. -/
def TsMono (l : List Envelope) : Prop := l.Pairwise (fun x y => x.timestamp ≤ y.timestamp)

theorem tsMono_node {l r : List Envelope} {v : Envelope} :
    TsMono (l ++ v :: r) ↔ TsMono l ∧ TsMono r ∧ (∀ x ∈ l, x.timestamp ≤ v.timestamp) ∧
      (∀ x ∈ r, v.timestamp ≤ x.timestamp) ∧ (∀ x ∈ l, ∀ y ∈ r, x.timestamp ≤ y.timestamp) := by
  unfold TsMono
  rw [List.pairwise_append, List.pairwise_cons]
  constructor
  · rintro ⟨h1, ⟨h2, h3⟩, h4⟩
    exact ⟨h1, h3, fun x hx => h4 x hx v (by simp), h2, fun x hx y hy => h4 x hx y (by simp [hy])⟩
  · rintro ⟨h1, h2, h3, h4, h5⟩
    refine ⟨h1, ⟨h4, h2⟩, ?_⟩
    intro a ha b hb
    rcases List.mem_cons.1 hb with rfl | hb
    · exact h3 a ha
    · exact h5 a ha b hb

theorem asc_mono (a : GetArgs) (t : Tree Envelope) (hm : TsMono t.envs)
    (res res' : List Envelope) (d : Bool)
    (h : ascTraverse a.start a.stop (getCallback a) t (some res) = (some res', d)) :
    ∃ p q, a.answer t.envs = p ++ q ∧ res' = res ++ p ∧ (d = false → q = []) ∧
      (d = true → a.limit ≤ (res'.length : Int) ∨ (q = [] ∧ ∃ x ∈ t.envs, a.stop ≤ x.timestamp)) := by
  induction t generalizing res res' d with
  | nil => simp [ascTraverse] at h; exact ⟨[], [], by simp [envs_nil, answer_nil], by simp [h], by simp, by simp [h.2]⟩
  | node l k v b r ihl ihr =>
    rw [envs_node] at hm ⊢
    obtain ⟨hml, hmr, hlv, hvr, hlr⟩ := tsMono_node.1 hm
    rw [answer_append, answer_cons]
    simp only [ascTraverse] at h
    split at h
    · rename_i hge
      split at h
      · rename_i s heq
        cases h
        obtain ⟨p, q, hpq, hr, -, hd⟩ := ihl hml _ _ _ heq
        refine ⟨p, q ++ (a.answer [v] ++ a.answer r.envs), by simp [hpq], hr, by simp, ?_⟩
        intro _
        rcases hd rfl with hd | ⟨hq, x, hx, hxs⟩
        · exact Or.inl hd
        · refine Or.inr ⟨?_, x, by simp [hx], hxs⟩
          have h1 : a.answer [v] = [] := answer_out a (by
            intro e he; simp at he; subst he; have := hlv x hx; right; omega)
          have h2 : a.answer r.envs = [] := answer_out a (by
            intro e he; have := hlr x hx e he; right; omega)
          simp [hq, h1, h2]
      · rename_i s heq
        cases s with
        | none =>
          exfalso
          have hi : (if v.timestamp ≥ a.stop then ((none : Option (List Envelope)), true)
            else getCallback a none v) = (none, true) := by split <;> rfl
          rw [hi] at h
          have := asc_none a r
          split at h
          · cases h
          · rw [h] at this; cases this
        | some r1 =>
          obtain ⟨p1, q1, hpq1, hr1, hd1, -⟩ := ihl hml _ _ _ heq
          have hq1 := hd1 rfl
          subst hq1
          by_cases hstop : v.timestamp ≥ a.stop
          · -- past the end: nothing more can match
            have h1 : a.answer [v] = [] := answer_out a (by
              intro e he; simp at he; subst he; right; omega)
            have h2 : a.answer r.envs = [] := answer_out a (by
              intro e he; have := hvr e he; right; omega)
            rw [if_pos hstop] at h
            refine ⟨p1, [], by simp [hpq1, h1, h2], ?_, by simp, ?_⟩
            · split at h
              · cases h; exact hr1
              · obtain ⟨p2, q2, hpq2, hr2, -⟩ := ihr hmr _ _ _ h
                rw [h2] at hpq2
                have := (List.append_eq_nil_iff.1 hpq2.symm).1
                simp [hr2, this, hr1]
            · intro _
              exact Or.inr ⟨rfl, v, by simp, hstop⟩
          · rw [if_neg hstop] at h
            rcases callback_step a r1 v hge (by omega) with hc | ⟨hc1, hc2, -⟩
            · rw [hc] at h
              split at h
              · cases h
              · have := asc_none a r; rw [h] at this; cases this
            · rw [hc1] at h
              split at h
              · rename_i hcond
                cases h
                refine ⟨p1 ++ a.answer [v], a.answer r.envs, by simp [hpq1], by simp [hr1], by simp, ?_⟩
                intro _
                exact Or.inl (hc2 (by simp at hcond; exact hcond.1))
              · obtain ⟨p2, q2, hpq2, hr2, hd2, hd2'⟩ := ihr hmr _ _ _ h
                refine ⟨p1 ++ (a.answer [v] ++ p2), q2, by simp [hpq1, hpq2], by simp [hr2, hr1], hd2, ?_⟩
                intro hd
                rcases hd2' hd with hd | ⟨hq, x, hx, hxs⟩
                · exact Or.inl hd
                · exact Or.inr ⟨hq, x, by simp [hx], hxs⟩
    · rename_i hlt
      have h1 : a.answer [v] = [] := answer_out a (by
        intro e he; simp at he; subst he; left; omega)
      have h2 : a.answer l.envs = [] := answer_out a (by
        intro e he; have := hlv e he; left; omega)
      obtain ⟨p2, q2, hpq2, hr2, hd2, hd2'⟩ := ihr hmr _ _ _ h
      refine ⟨p2, q2, by simp [h1, h2, hpq2], hr2, hd2, ?_⟩
      intro hd
      rcases hd2' hd with hd | ⟨hq, x, hx, hxs⟩
      · exact Or.inl hd
      · exact Or.inr ⟨hq, x, by simp [hx], hxs⟩

theorem desc_mono (a : GetArgs) (t : Tree Envelope) (hm : TsMono t.envs)
    (res res' : List Envelope) (d : Bool)
    (h : descTraverse a.start a.stop (getCallback a) t (some res) = (some res', d)) :
    ∃ p q, a.answer t.envs.reverse = p ++ q ∧ res' = res ++ p ∧ (d = false → q = []) ∧
      (d = true → a.limit ≤ (res'.length : Int) ∨ (q = [] ∧ ∃ x ∈ t.envs, x.timestamp < a.start)) := by
  induction t generalizing res res' d with
  | nil => simp [descTraverse] at h; exact ⟨[], [], by simp [envs_nil, answer_nil], by simp [h], by simp, by simp [h.2]⟩
  | node l k v b r ihl ihr =>
    rw [envs_node] at hm ⊢
    obtain ⟨hml, hmr, hlv, hvr, hlr⟩ := tsMono_node.1 hm
    rw [List.reverse_append, List.reverse_cons, List.append_assoc, answer_append, answer_append]
    simp only [descTraverse] at h
    split at h
    · rename_i hge
      split at h
      · rename_i s heq
        cases h
        obtain ⟨p, q, hpq, hr, -, hd⟩ := ihr hmr _ _ _ heq
        refine ⟨p, q ++ (a.answer [v] ++ a.answer l.envs.reverse), by simp [hpq], hr, by simp, ?_⟩
        intro _
        rcases hd rfl with hd | ⟨hq, x, hx, hxs⟩
        · exact Or.inl hd
        · refine Or.inr ⟨?_, x, by simp [hx], hxs⟩
          have h1 : a.answer [v] = [] := answer_out a (by
            intro e he; simp at he; subst he; have := hvr x hx; left; omega)
          have h2 : a.answer l.envs.reverse = [] := answer_out a (by
            intro e he; simp at he; have := hlr e he x hx; left; omega)
          simp [hq, h1, h2]
      · rename_i s heq
        cases s with
        | none =>
          exfalso
          have hi : (if v.timestamp < a.start then ((none : Option (List Envelope)), true)
            else getCallback a none v) = (none, true) := by split <;> rfl
          rw [hi] at h
          have := desc_none a l
          split at h
          · cases h
          · rw [h] at this; cases this
        | some r1 =>
          obtain ⟨p1, q1, hpq1, hr1, hd1, -⟩ := ihr hmr _ _ _ heq
          have hq1 := hd1 rfl
          subst hq1
          by_cases hstop : v.timestamp < a.start
          · have h1 : a.answer [v] = [] := answer_out a (by
              intro e he; simp at he; subst he; left; omega)
            have h2 : a.answer l.envs.reverse = [] := answer_out a (by
              intro e he; simp at he; have := hlv e he; left; omega)
            rw [if_pos hstop] at h
            refine ⟨p1, [], by simp [hpq1, h1, h2], ?_, by simp, ?_⟩
            · split at h
              · cases h; exact hr1
              · obtain ⟨p2, q2, hpq2, hr2, -⟩ := ihl hml _ _ _ h
                rw [h2] at hpq2
                have := (List.append_eq_nil_iff.1 hpq2.symm).1
                simp [hr2, this, hr1]
            · intro _
              exact Or.inr ⟨rfl, v, by simp, hstop⟩
          · rw [if_neg hstop] at h
            rcases callback_step a r1 v (by omega) hge with hc | ⟨hc1, hc2, -⟩
            · rw [hc] at h
              split at h
              · cases h
              · have := desc_none a l; rw [h] at this; cases this
            · rw [hc1] at h
              split at h
              · rename_i hcond
                cases h
                refine ⟨p1 ++ a.answer [v], a.answer l.envs.reverse, by simp [hpq1], by simp [hr1], by simp, ?_⟩
                intro _
                exact Or.inl (hc2 (by simp at hcond; exact hcond.1))
              · obtain ⟨p2, q2, hpq2, hr2, hd2, hd2'⟩ := ihl hml _ _ _ h
                refine ⟨p1 ++ (a.answer [v] ++ p2), q2, by simp [hpq1, hpq2], by simp [hr2, hr1], hd2, ?_⟩
                intro hd
                rcases hd2' hd with hd | ⟨hq, x, hx, hxs⟩
                · exact Or.inl hd
                · exact Or.inr ⟨hq, x, by simp [hx], hxs⟩
    · rename_i hlt
      have h1 : a.answer [v] = [] := answer_out a (by
        intro e he; simp at he; subst he; right; omega)
      have h2 : a.answer r.envs.reverse = [] := answer_out a (by
        intro e he; simp at he; have := hvr e he; right; omega)
      obtain ⟨p2, q2, hpq2, hr2, hd2, hd2'⟩ := ihl hml _ _ _ h
      refine ⟨p2, q2, by simp [h1, h2, hpq2], hr2, hd2, ?_⟩
      intro hd
      rcases hd2' hd with hd | ⟨hq, x, hx, hxs⟩
      · exact Or.inl hd
      · exact Or.inr ⟨hq, x, by simp [hx], hxs⟩

/-! ## the limit is exact when no key was shifted -/

/-- Every entry sits at its own timestamp. -/
def Unfudged (l : List (Int × Envelope)) : Prop := ∀ x ∈ l, x.2.timestamp = x.1

theorem isFudgeMember_false {k : Int} {v : Envelope} {c : Tree Envelope}
    (h : v.timestamp = k) (hc : Unfudged c.toList) : isFudgeMember k v c = false := by
  unfold isFudgeMember
  rw [if_neg (by simp [h])]
  cases c with
  | nil => rfl
  | node l k' v' b r =>
    have := hc (k', v') (by simp [Tree.toList])
    simpa using this

theorem unfudged_node {l r : Tree Envelope} {k b : Int} {v : Envelope} :
    Unfudged (Tree.node l k v b r).toList ↔
      Unfudged l.toList ∧ v.timestamp = k ∧ Unfudged r.toList := by
  unfold Unfudged
  simp only [Tree.toList, List.mem_append, List.mem_cons]
  constructor
  · intro h
    exact ⟨fun x hx => h x (Or.inl hx), h (k, v) (Or.inr (Or.inl rfl)),
      fun x hx => h x (Or.inr (Or.inr hx))⟩
  · rintro ⟨h1, h2, h3⟩ x (hx | rfl | hx)
    · exact h1 x hx
    · exact h2
    · exact h3 x hx

theorem asc_limit (a : GetArgs) (t : Tree Envelope) (hu : Unfudged t.toList)
    (res res' : List Envelope) (d : Bool) (hlim : (res.length : Int) < a.limit)
    (h : ascTraverse a.start a.stop (getCallback a) t (some res) = (some res', d)) :
    (d = false → (res'.length : Int) < a.limit) ∧ (res'.length : Int) ≤ a.limit := by
  induction t generalizing res res' d with
  | nil => simp [ascTraverse] at h; obtain ⟨rfl, rfl⟩ := h; simp; omega
  | node l k v b r ihl ihr =>
    obtain ⟨hul, hk, hur⟩ := unfudged_node.1 hu
    simp only [ascTraverse] at h
    split at h
    · rename_i hge
      split at h
      · rename_i s heq
        cases h
        exact ⟨by simp, (ihl hul _ _ _ hlim heq).2⟩
      · rename_i s heq
        rw [isFudgeMember_false hk hur] at h
        cases s with
        | none =>
          exfalso
          have hi : (if v.timestamp ≥ a.stop then ((none : Option (List Envelope)), true)
            else getCallback a none v) = (none, true) := by split <;> rfl
          rw [hi] at h
          simp at h
        | some r1 =>
          have hl1 := (ihl hul _ _ _ hlim heq).1 rfl
          by_cases hstop : v.timestamp ≥ a.stop
          · rw [if_pos hstop] at h
            simp at h
            obtain ⟨rfl, rfl⟩ := h
            exact ⟨by simp, by omega⟩
          · rw [if_neg hstop] at h
            rcases callback_step a r1 v hge (by omega) with hc | ⟨hc1, -, hc3⟩
            · rw [hc] at h
              split at h
              · cases h
              · have := asc_none a r; rw [h] at this; cases this
            · rw [hc1] at h
              have hle : ((r1 ++ a.answer [v]).length : Int) ≤ a.limit := by
                have : (a.answer [v]).length ≤ 1 := by
                  rw [answer_single_in a hge (by omega)]
                  refine Nat.le_trans (List.length_filter_le _ _) ?_
                  cases project a.nameFilter v <;> simp
                simp; omega
              split at h
              · cases h
                exact ⟨by simp, hle⟩
              · rename_i hcond
                have hf : (getCallback a (some r1) v).2 = false := by simpa using hcond
                refine ihr hur _ _ _ ?_ h
                have := hc3 hf
                by_cases hx : a.limit ≤ ((r1 ++ a.answer [v]).length : Int)
                · rw [this hx]; simpa using hl1
                · omega
    · exact ihr hur _ _ _ hlim h

theorem desc_limit (a : GetArgs) (t : Tree Envelope) (hu : Unfudged t.toList)
    (res res' : List Envelope) (d : Bool) (hlim : (res.length : Int) < a.limit)
    (h : descTraverse a.start a.stop (getCallback a) t (some res) = (some res', d)) :
    (d = false → (res'.length : Int) < a.limit) ∧ (res'.length : Int) ≤ a.limit := by
  induction t generalizing res res' d with
  | nil => simp [descTraverse] at h; obtain ⟨rfl, rfl⟩ := h; simp; omega
  | node l k v b r ihl ihr =>
    obtain ⟨hul, hk, hur⟩ := unfudged_node.1 hu
    simp only [descTraverse] at h
    split at h
    · rename_i hge
      split at h
      · rename_i s heq
        cases h
        exact ⟨by simp, (ihr hur _ _ _ hlim heq).2⟩
      · rename_i s heq
        rw [isFudgeMember_false hk hul] at h
        cases s with
        | none =>
          exfalso
          have hi : (if v.timestamp < a.start then ((none : Option (List Envelope)), true)
            else getCallback a none v) = (none, true) := by split <;> rfl
          rw [hi] at h
          simp at h
        | some r1 =>
          have hl1 := (ihr hur _ _ _ hlim heq).1 rfl
          by_cases hstop : v.timestamp < a.start
          · rw [if_pos hstop] at h
            simp at h
            obtain ⟨rfl, rfl⟩ := h
            exact ⟨by simp, by omega⟩
          · rw [if_neg hstop] at h
            rcases callback_step a r1 v (by omega) hge with hc | ⟨hc1, -, hc3⟩
            · rw [hc] at h
              split at h
              · cases h
              · have := desc_none a l; rw [h] at this; cases this
            · rw [hc1] at h
              have hle : ((r1 ++ a.answer [v]).length : Int) ≤ a.limit := by
                have : (a.answer [v]).length ≤ 1 := by
                  rw [answer_single_in a (by omega) hge]
                  refine Nat.le_trans (List.length_filter_le _ _) ?_
                  cases project a.nameFilter v <;> simp
                simp; omega
              split at h
              · cases h
                exact ⟨by simp, hle⟩
              · rename_i hcond
                have hf : (getCallback a (some r1) v).2 = false := by simpa using hcond
                refine ihl hul _ _ _ ?_ h
                have := hc3 hf
                by_cases hx : a.limit ≤ ((r1 ++ a.answer [v]).length : Int)
                · rw [this hx]; simpa using hl1
                · omega
    · exact ihl hul _ _ _ hlim h

/-! ## summary on one tree -/

/-- The stored list as a read walks it. -/
def walkOrder (a : GetArgs) (t : Tree Envelope) : List Envelope :=
  if a.descending then t.envs.reverse else t.envs

theorem getTree_sound (t : Tree Envelope) (a : GetArgs) (res : List Envelope)
    (h : getTree t a = some res) : res.Sublist (a.answer (walkOrder a t)) := by
  unfold getTree at h
  unfold walkOrder
  split at h
  · rename_i hd
    obtain ⟨p, hp, hs⟩ := desc_sound a t [] res h
    simp at hp; subst hp; simpa [hd] using hs
  · rename_i hd
    obtain ⟨p, hp, hs⟩ := asc_sound a t [] res h
    simp at hp; subst hp; simpa [hd] using hs

theorem getTree_known (t : Tree Envelope) (a : GetArgs) (hk : knownTypes a.types) :
    ∃ res, getTree t a = some res := by
  unfold getTree
  split
  · exact desc_known a hk t []
  · exact asc_known a hk t []

theorem getTree_mono (t : Tree Envelope) (a : GetArgs) (hm : TsMono t.envs)
    (res : List Envelope) (h : getTree t a = some res) :
    res <+: a.answer (walkOrder a t) ∧
      (res = a.answer (walkOrder a t) ∨ a.limit ≤ (res.length : Int)) := by
  unfold getTree at h
  unfold walkOrder
  split at h
  · rename_i hd
    rw [if_pos hd]
    rcases hx : descTraverse a.start a.stop (getCallback a) t (some []) with ⟨x, d⟩
    rw [hx] at h; simp only at h; subst h
    obtain ⟨p, q, hpq, hr, h1, h2⟩ := desc_mono a t hm [] res d hx
    simp at hr; subst hr
    refine ⟨⟨q, hpq.symm⟩, ?_⟩
    cases d with
    | false => left; rw [hpq, h1 rfl]; simp
    | true =>
      rcases h2 rfl with h | ⟨h, -⟩
      · exact Or.inr h
      · left; rw [hpq, h]; simp
  · rename_i hd
    rw [if_neg hd]
    rcases hx : ascTraverse a.start a.stop (getCallback a) t (some []) with ⟨x, d⟩
    rw [hx] at h; simp only at h; subst h
    obtain ⟨p, q, hpq, hr, h1, h2⟩ := asc_mono a t hm [] res d hx
    simp at hr; subst hr
    refine ⟨⟨q, hpq.symm⟩, ?_⟩
    cases d with
    | false => left; rw [hpq, h1 rfl]; simp
    | true =>
      rcases h2 rfl with h | ⟨h, -⟩
      · exact Or.inr h
      · left; rw [hpq, h]; simp

theorem tsMono_of_unfudged {t : Tree Envelope} (hb : t.BST) (hu : Unfudged t.toList) :
    TsMono t.envs := by
  unfold TsMono Tree.envs
  rw [List.pairwise_map]
  refine List.Pairwise.imp_of_mem ?_ hb
  intro x y hx hy hxy
  rw [hu x hx, hu y hy]; omega

theorem getTree_exact (t : Tree Envelope) (a : GetArgs) (hb : t.BST) (hu : Unfudged t.toList)
    (hl : 1 ≤ a.limit) (res : List Envelope) (h : getTree t a = some res) :
    res = (a.answer (walkOrder a t)).take a.limit.toNat := by
  obtain ⟨⟨q, hq⟩, h2⟩ := getTree_mono t a (tsMono_of_unfudged hb hu) res h
  have hlen : (res.length : Int) ≤ a.limit := by
    unfold getTree at h
    split at h
    · rcases hx : descTraverse a.start a.stop (getCallback a) t (some []) with ⟨x, d⟩
      rw [hx] at h; simp only at h; subst h
      exact (desc_limit a t hu [] res d (by simp; omega) hx).2
    · rcases hx : ascTraverse a.start a.stop (getCallback a) t (some []) with ⟨x, d⟩
      rw [hx] at h; simp only at h; subst h
      exact (asc_limit a t hu [] res d (by simp; omega) hx).2
  rcases h2 with h2 | h2
  · rw [← h2, List.take_of_length_le (by omega)]
  · rw [← hq, List.take_append_of_le_length (by omega), List.take_of_length_le (by omega)]

end LogCache
