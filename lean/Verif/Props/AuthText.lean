import Verif.Model.AuthText
import Verif.Spec.AuthText
import Verif.Proof.Blackbox
import Verif.Props.JsonGrammar
import Verif.Props.Auth

/-! # C160: answers of CAPI and UAA and the contents of tokens are read as they were written -/

namespace LogCache
open Spec

/-! ## Names of fields -/

/-- A name as it stands in a struct of the code. -/
def LowerName (k : String) : Prop := ∀ d ∈ k.toList, foldLetter d = d

instance (k : String) : Decidable (LowerName k) := inferInstanceAs (Decidable (∀ d ∈ k.toList, _))

private theorem ofNat_toNat (c : Char) : Char.ofNat c.toNat = c := Char.ofNat_toNat c

private theorem fold_uncased {c d : Char} (hd : foldLetter d = d) : foldLetter c = d ↔ Uncased c d := by
  have e1 : c = Char.ofNat 0x17F ↔ c.toNat = 0x17F :=
    ⟨fun h => by rw [h]; rfl, fun h => by rw [← ofNat_toNat c, h]⟩
  have e2 : c = Char.ofNat 0x212A ↔ c.toNat = 0x212A :=
    ⟨fun h => by rw [h]; rfl, fun h => by rw [← ofNat_toNat c, h]⟩
  unfold Uncased
  constructor
  · intro h
    unfold foldLetter at h
    split at h
    · exact .inr (.inr (.inl ⟨e1.1 ‹_›, h.symm⟩))
    split at h
    · exact .inr (.inr (.inr ⟨e2.1 ‹_›, h.symm⟩))
    unfold lowerChar at h
    split at h
    · rename_i hc
      refine .inr (.inl ⟨hc.1, hc.2, ?_⟩)
      rw [← h]
      have h2 : c.toNat ≤ 90 := hc.2
      unfold Char.ofNat
      rw [dif_pos (show (c.toNat + 32).isValidChar from .inl (by omega))]
      rfl
    · exact .inl h
  · rintro (rfl | ⟨h1, h2, h3⟩ | ⟨h1, rfl⟩ | ⟨h1, rfl⟩)
    · exact hd
    · have h1' : 65 ≤ c.toNat := h1
      have h2' : c.toNat ≤ 90 := h2
      unfold foldLetter
      rw [if_neg (fun h => by have := e1.1 h; omega), if_neg (fun h => by have := e2.1 h; omega)]
      unfold lowerChar
      rw [if_pos ⟨h1, h2⟩, ← h3, ofNat_toNat]
    · unfold foldLetter; rw [if_pos (e1.2 h1)]
    · unfold foldLetter
      rw [if_neg (fun h => by have := e1.1 h; omega), if_pos (e2.2 h1)]

private theorem fold_named_aux (name ds : Str) (hd : ∀ d ∈ ds, foldLetter d = d) :
    name.map foldLetter = ds ↔ List.Forall₂ Uncased name ds := by
  induction name generalizing ds with
  | nil => cases ds <;> simp
  | cons c cs ih =>
    cases ds with
    | nil => simp
    | cons d ds =>
      rw [List.map_cons, List.cons.injEq, List.forall₂_cons, ih ds fun x hx => hd x (List.mem_cons_of_mem _ hx),
        fold_uncased (hd d (List.mem_cons_self ..))]

private theorem fold_named {k : String} (hk : LowerName k) (name : Str) :
    name.map foldLetter = k.toList ↔ Named k name := fold_named_aux name _ hk

private theorem field_some {fs : List (Str × Json)} {k : String} {v : Json} (hk : LowerName k)
    (h : OnlyField fs k v) : structField fs k = some v := by
  obtain ⟨b, name, a, rfl, hn, ho⟩ := h
  unfold structField
  have : (b ++ (name, v) :: a).reverse = a.reverse ++ ((name, v) :: b.reverse) := by simp
  rw [this, List.find?_append, List.find?_eq_none.2, List.find?_cons_of_pos]
  · rfl
  · simpa using (fold_named hk _).2 hn
  · intro p hp
    rw [List.mem_reverse] at hp
    have := ho p (List.mem_append_right _ hp)
    simpa using fun h => this ((fold_named hk _).1 h)

private theorem field_none {fs : List (Str × Json)} {k : String} (hk : LowerName k)
    (h : ∀ p ∈ fs, ¬ Named k p.1) : structField fs k = none := by
  unfold structField
  rw [List.find?_eq_none.2]
  · rfl
  · intro p hp
    rw [List.mem_reverse] at hp
    simpa using fun h' => h p hp ((fold_named hk _).1 h')

private theorem field_lacks {fs : List (Str × Json)} {k : String} (hk : LowerName k)
    (h : Lacks fs k) : structField fs k = none ∨ structField fs k = some .null := by
  rcases h with h | h
  · exact .inl (field_none hk h)
  · exact .inr (field_some hk h)

private theorem field_mem {fs : List (Str × Json)} {k : String} {v : Json} (hk : LowerName k)
    (h : structField fs k = some v) : SomeField fs k v := by
  unfold structField at h
  rw [Option.map_eq_some_iff] at h
  obtain ⟨p, hp, rfl⟩ := h
  exact ⟨p, by simpa using List.mem_of_find?_eq_some hp,
    (fold_named hk _).1 (by simpa using List.find?_some hp), rfl⟩

private theorem text_some {fs : List (Str × Json)} {k : String} {x : Str} (hk : LowerName k)
    (h : HasText fs k x) : structText fs k = some x := by
  unfold structText
  rcases h with h | ⟨rfl, h⟩
  · rw [field_some hk h]
  · rcases field_lacks hk h with h | h <;> rw [h]

private theorem text_mem {fs : List (Str × Json)} {k : String} {x : Str} (hk : LowerName k)
    (h : structText fs k = some x) : SomeField fs k (.str x) ∨ x = [] := by
  unfold structText at h
  cases hf : structField fs k with
  | none => rw [hf] at h; cases h; exact .inr rfl
  | some v =>
    rw [hf] at h
    cases v with
    | null => cases h; exact .inr rfl
    | str s => cases h; exact .inl (field_mem hk hf)
    | bool => cases h
    | num => cases h
    | arr => cases h
    | obj => cases h

private theorem traverse_some {α : Type} {f : Json → Option α} {R : Json → α → Prop}
    (hf : ∀ j a, R j a → f j = some a) {xs : List Json} {as : List α} (h : List.Forall₂ R xs as) :
    traverse f xs = some as := by
  induction h with
  | nil => rfl
  | cons h _ ih => rw [traverse, hf _ _ h, ih]

private theorem traverse_mem {α : Type} {f : Json → Option α} {xs : List Json} {as : List α}
    (h : traverse f xs = some as) : ∀ a ∈ as, ∃ x ∈ xs, f x = some a := by
  induction xs generalizing as with
  | nil => cases h; simp
  | cons x xs ih =>
    rw [traverse] at h
    cases hx : f x with
    | none => rw [hx] at h; cases h
    | some y =>
      rw [hx] at h
      cases hs : traverse f xs with
      | none => rw [hs] at h; cases h
      | some ys =>
        rw [hs] at h
        cases h
        intro a ha
        rcases List.mem_cons.1 ha with rfl | ha
        · exact ⟨x, List.mem_cons_self .., hx⟩
        · obtain ⟨x', h1, h2⟩ := ih hs a ha
          exact ⟨x', List.mem_cons_of_mem _ h1, h2⟩

private theorem list_mem {α : Type} {f : Json → Option α} {o : Option Json} {as : List α}
    (h : structList f o = some as) : ∀ a ∈ as, ∃ xs, o = some (.arr xs) ∧ ∃ x ∈ xs, f x = some a := by
  cases o with
  | none => cases h; simp
  | some v =>
    cases v with
    | null => cases h; simp
    | arr xs => exact fun a ha => ⟨xs, rfl, traverse_mem h a ha⟩
    | bool => cases h
    | num => cases h
    | str => cases h
    | obj => cases h

/-- A document is read by the decoder, also with something after it. -/
private theorem decode_doc {t : Str} {fs : List (Str × Json)} (h : JsonDoc (.obj fs) t) :
    decodeJson t = some (.obj fs) := by
  have := (C76_grammar t _).2 h
  unfold unmarshalJson at this
  unfold decodeJson
  generalize readValue (t.length + 1) t = r at this
  cases r with
  | none => cases this
  | some p =>
    simp only at this
    split at this
    · injection this with this; rw [← this]; rfl
    · cases this

private theorem decode_begins {t : Str} {fs : List (Str × Json)} (h : decodeJson t = some (.obj fs)) :
    BeginsObject t fs := (C76_decoder t (.obj fs)).1 h

/-- What is read from a text comes from the object it begins with. -/
private theorem struct_begins {α : Type} {t : Str} {f : List (Str × Json) → Option α} {a : α}
    (h : ((decodeJson t).bind fun j => (structObj (some j)).bind f) = some a) :
    ∃ fs, f fs = some a ∧ (BeginsObject t fs ∨ fs = []) := by
  obtain ⟨j, hj, h⟩ := Option.bind_eq_some_iff.1 h
  obtain ⟨fs, hfs, h⟩ := Option.bind_eq_some_iff.1 h
  cases j with
  | null => cases hfs; exact ⟨[], h, .inr rfl⟩
  | obj gs => injection hfs with hfs; subst hfs; exact ⟨_, h, .inl (decode_begins hj)⟩
  | bool => cases hfs
  | num => cases hfs
  | str => cases hfs
  | arr => cases hfs

/-! ## Pages of CAPI -/

private theorem resource_some (j : Json) (r : Resource) (h : SaysResource j r) : resourceOf j = some r := by
  obtain ⟨fs, rfl, h1, h2⟩ := h
  unfold resourceOf structObj
  simp only [Option.bind_some, text_some (by decide) h1, text_some (by decide) h2, Option.map_some]

/-- A page is read as it was written: all its resources in order, and the address of the next
page, whatever other fields there are and in whatever order they come. -/
theorem C160_page (t : Str) (rs : List Resource) (href : Str) (h : SaysPage t rs href) :
    capiPage t = some (rs, href) := by
  obtain ⟨fs, hd, hn, hr⟩ := h
  unfold capiPage
  rw [decode_doc hd]
  have hrs : structList resourceOf (structField fs "resources") = some rs := by
    rcases hr with ⟨xs, h1, h2⟩ | ⟨rfl, h1⟩
    · rw [field_some (by decide) h1]; exact traverse_some resource_some h2
    · rcases field_lacks (by decide) h1 with h | h <;> rw [h] <;> rfl
  simp only [Option.bind_some, structObj]
  have hnext : (structObj (structField fs "pagination")).bind (fun ps =>
      (structObj (structField ps "next")).bind fun ns => structText ns "href") = some href := by
    rcases hn with ⟨ps, ns, h1, h2, h3⟩ | ⟨ps, h1, h2, rfl⟩ | ⟨h1, rfl⟩
    · rw [field_some (by decide) h1]
      simp only [structObj, Option.bind_some, field_some (by decide) h2, text_some (by decide) h3]
    · rw [field_some (by decide) h1]
      simp only [structObj, Option.bind_some]
      rcases field_lacks (by decide) h2 with h | h <;> rw [h] <;> rfl
    · rcases field_lacks (by decide) h1 with h | h <;> rw [h] <;> rfl
  obtain ⟨ps, e1, hnext⟩ := Option.bind_eq_some_iff.1 hnext
  obtain ⟨ns, e2, e3⟩ := Option.bind_eq_some_iff.1 hnext
  simp only [structObj] at e1 e2 ⊢
  rw [e1]; simp only [Option.bind_some]
  rw [e2]; simp only [Option.bind_some]
  rw [e3, hrs]; rfl

/-- Nothing is invented: an id read from a text is listed in it. -/
theorem C160_page_only (t : Str) (rs : List Resource) (href : Str) (h : capiPage t = some (rs, href)) :
    ∀ r ∈ rs, r.guid ≠ [] → ListsId t r.guid := by
  intro r hr hne
  obtain ⟨fs, h, hb⟩ := struct_begins h
  obtain ⟨ps, _, h⟩ := Option.bind_eq_some_iff.1 h
  obtain ⟨ns, _, h⟩ := Option.bind_eq_some_iff.1 h
  obtain ⟨x, _, h⟩ := Option.bind_eq_some_iff.1 h
  obtain ⟨rs', hrs, he⟩ := Option.map_eq_some_iff.1 h
  injection he with he _
  rw [← he] at hr
  obtain ⟨xs, h1, j, h2, h3⟩ := list_mem hrs r hr
  obtain ⟨gs, h4, h3⟩ := Option.bind_eq_some_iff.1 h3
  obtain ⟨g, h5, h3⟩ := Option.bind_eq_some_iff.1 h3
  obtain ⟨n, _, rfl⟩ := Option.map_eq_some_iff.1 h3
  have hf := field_mem (by decide) h1
  have hbo : BeginsObject t fs := by
    rcases hb with hb | rfl
    · exact hb
    · obtain ⟨p, hp, _⟩ := hf; cases hp
  have hg : SomeField gs "guid" (.str g) := (text_mem (by decide) h5).resolve_right hne
  refine ⟨fs, xs, gs, hbo, hf, ?_, hg⟩
  cases j with
  | obj fs' => cases h4; exact h2
  | null => cases h4; obtain ⟨p, hp, _⟩ := hg; cases hp
  | bool => cases h4
  | num => cases h4
  | str => cases h4
  | arr => cases h4

/-- A listing whose pages are all well-formed gives the resources of all its pages. -/
theorem C160_listing (parse : Str → Option Url) (u : Url) (tr : List (Url × HttpAns Str))
    (out : Option (List Resource)) (h : Paginated u (tr.map fun p => (p.1, capiResp parse p.2)) out)
    (pages : List (Str × List Resource × Str)) (hp : ∀ q ∈ pages, SaysPage q.1 q.2.1 q.2.2)
    (ha : tr.map Prod.snd = pages.map fun q => .resp 200 (some q.1))
    (hu : ∀ q ∈ pages, q.2.2 ≠ [] → parse q.2.2 ≠ none) :
    out = some (pages.flatMap fun q => q.2.1) := by
  have key : tr.map (fun p => capiResp parse p.2) =
      pages.map fun q => .page q.2.1 (if q.2.2 = [] then none else some (parse q.2.2)) := by
    have : tr.map (fun p => capiResp parse p.2) = (tr.map Prod.snd).map (capiResp parse) := by
      rw [List.map_map]; rfl
    rw [this, ha, List.map_map]
    refine List.map_congr_left fun q hq => ?_
    show capiResp parse (.resp 200 (some q.1)) = _
    simp only [capiResp, ne_eq, not_true_eq_false, if_false]
    simp only [Option.bind_some, C160_page _ _ _ (hp q hq)]
  obtain ⟨h1, h2⟩ := C67_complete u _ out h
  cases out with
  | none =>
    obtain ⟨p, hp1, hp2⟩ := h2 rfl
    rw [List.mem_map] at hp1
    obtain ⟨p', hp1, rfl⟩ := hp1
    have hm : capiResp parse p'.2 ∈ tr.map (fun p => capiResp parse p.2) := List.mem_map_of_mem hp1
    rw [key, List.mem_map] at hm
    obtain ⟨q, hq, he⟩ := hm
    simp only at hp2
    rw [← he] at hp2
    rcases hp2 with hp2 | ⟨page, hp2⟩
    · cases hp2
    · injection hp2 with _ hp2
      split at hp2
      · cases hp2
      · rename_i hne
        injection hp2 with hp2
        exact absurd hp2 (hu q hq hne)
  | some rs =>
    obtain ⟨_, h1, _⟩ := h1 rs rfl
    rw [h1]
    congr 1
    refine Eq.trans (b := (tr.map fun p => capiResp parse p.2).flatMap
      (fun r => match r with | .page page _ => page | .fail => [])) ?_ ?_
    · rw [List.flatMap_map, List.flatMap_map]
      congr 1
    · rw [key, List.flatMap_map]

/-- An id is available only if an answer with status 200 to one of the requests lists it. -/
theorem C160_ids_only (parse : Str → Option Url) (u u' : Url) (tr tr' : List (Url × HttpAns Str))
    (apps services : Option (List Resource))
    (h : Paginated u (tr.map fun p => (p.1, capiResp parse p.2)) apps)
    (h' : Paginated u' (tr'.map fun p => (p.1, capiResp parse p.2)) services)
    (x : Str) (hx : x ∈ availableIds apps services) (hne : x ≠ []) :
    ∃ p ∈ tr ++ tr', ∃ t, p.2 = .resp 200 (some t) ∧ ListsId t x := by
  have one : ∀ (v : Url) (l : List (Url × HttpAns Str)) (rs : List Resource),
      Paginated v (l.map fun p => (p.1, capiResp parse p.2)) (some rs) → ∀ r ∈ rs, r.guid = x →
      ∃ p ∈ l, ∃ t, p.2 = .resp 200 (some t) ∧ ListsId t x := by
    intro v l rs hl r hr hg
    obtain ⟨_, h1, _⟩ := (C67_complete v _ _ hl).1 rs rfl
    rw [h1, List.mem_flatMap] at hr
    obtain ⟨q, hq, hr⟩ := hr
    rw [List.mem_map] at hq
    obtain ⟨p, hp, rfl⟩ := hq
    refine ⟨p, hp, ?_⟩
    simp only at hr
    obtain ⟨w, a⟩ := p
    cases a with
    | failed => exact absurd hr (List.not_mem_nil)
    | resp st body =>
      simp only [capiResp] at hr
      split at hr
      · rename_i page nx heq
        split at heq
        · cases heq
        · rename_i hst
          split at heq
          · cases heq
          · rename_i rs' href hb
            obtain ⟨t, rfl, hb⟩ := Option.bind_eq_some_iff.1 hb
            cases heq
            refine ⟨t, ?_, hg ▸ C160_page_only t _ href hb r hr (hg ▸ hne)⟩
            rw [not_not.1 hst]
      · cases hr
  obtain ⟨i1, i2⟩ := C67_ids apps services
  cases apps with
  | none => rw [i2 (.inl rfl)] at hx; cases hx
  | some as =>
    cases services with
    | none => rw [i2 (.inr rfl)] at hx; cases hx
    | some ss =>
      obtain ⟨r, hr, hg⟩ := (i1 as ss rfl rfl x).1 hx
      rcases hr with hr | hr
      · obtain ⟨p, hp, ht⟩ := one u tr as h r hr hg
        exact ⟨p, List.mem_append_left _ hp, ht⟩
      · obtain ⟨p, hp, ht⟩ := one u' tr' ss h' r hr hg
        exact ⟨p, List.mem_append_right _ hp, ht⟩

/-! ## Keys of UAA -/

private theorem key_some (j : Json) (k : Str × Str) (h : SaysKey j k) : keyOf j = some k := by
  obtain ⟨fs, rfl, h1, h2⟩ := h
  unfold keyOf structObj
  simp only [Option.bind_some, text_some (by decide) h1, text_some (by decide) h2, Option.map_some]

private theorem keys_some (t : Str) (ks : List (Str × Str)) (h : SaysKeys t ks) : tokenKeysOf t = some ks := by
  obtain ⟨fs, hd, hk⟩ := h
  unfold tokenKeysOf
  rw [decode_doc hd]
  simp only [structObj, Option.bind_some]
  rcases hk with ⟨xs, h1, h2⟩ | ⟨rfl, h1⟩
  · rw [field_some (by decide) h1]; exact traverse_some key_some h2
  · rcases field_lacks (by decide) h1 with h | h <;> rw [h] <;> rfl

/-- After a refresh answered with a document of keys that can all be parsed and have
different ids, the keys kept are exactly those of the document. -/
theorem C160_keys {κ : Type} (pem : Str → Option κ) (keys : List (Str × κ)) (t : Str) (ks : List (Str × Str))
    (h : SaysKeys t ks) (hp : ∀ p ∈ ks, p.2 ≠ [] ∧ (pem p.2).isSome) (hn : (ks.map Prod.fst).Nodup) :
    (refreshKeys keys (uaaResp pem (.resp 200 (some t)))).2 = true ∧
    ∀ kid k, (refreshKeys keys (uaaResp pem (.resp 200 (some t)))).1.lookup kid = some k ↔
      ∃ v, (kid, v) ∈ ks ∧ pem v = some k := by
  have hr : uaaResp pem (.resp 200 (some t)) = some (ks.map fun p => (p.1, if p.2 = [] then none else pem p.2)) := by
    simp only [uaaResp, ne_eq, not_true_eq_false, if_false]
    simp only [Option.bind_some, keys_some t ks h, Option.map_some]
  obtain ⟨h1, h2⟩ := C68_success keys (uaaResp pem (.resp 200 (some t)))
  have hok : (refreshKeys keys (uaaResp pem (.resp 200 (some t)))).2 = true := by
    rw [h1]
    refine ⟨_, hr, fun p hpm => ?_⟩
    rw [List.mem_map] at hpm
    obtain ⟨q, hq, rfl⟩ := hpm
    show (if q.2 = [] then none else pem q.2).isSome
    rw [if_neg (hp q hq).1]
    exact (hp q hq).2
  refine ⟨hok, fun kid k => ?_⟩
  rw [h2 hok _ hr kid]
  clear hok h1 h2 hr h
  have hlook : ∀ l : List (Str × Str), (l.map Prod.fst).Nodup → ∀ o : Option κ,
      ((l.map fun p => (p.1, if p.2 = [] then none else pem p.2))).lookup kid = some o ↔
        ∃ v, (kid, v) ∈ l ∧ (if v = [] then none else pem v) = o := by
    intro l
    induction l with
    | nil => intro _ o; simp
    | cons q l ih =>
      intro hn o
      rw [List.map_cons, List.nodup_cons] at hn
      obtain ⟨a, v⟩ := q
      rw [List.map_cons, List.lookup_cons]
      by_cases he : kid = a
      · subst he
        simp only [beq_self_eq_true, Option.some.injEq]
        constructor
        · intro h; exact ⟨v, List.mem_cons_self .., h⟩
        · rintro ⟨v', hm, h⟩
          rcases List.mem_cons.1 hm with hm | hm
          · cases hm; exact h
          · exact absurd (List.mem_map.2 ⟨_, hm, rfl⟩) hn.1
      · have : (kid == a) = false := by simpa using he
        simp only [this]
        rw [ih hn.2 o]
        constructor
        · rintro ⟨v', hm, h⟩; exact ⟨v', List.mem_cons_of_mem _ hm, h⟩
        · rintro ⟨v', hm, h⟩
          rcases List.mem_cons.1 hm with hm | hm
          · cases hm; exact absurd rfl he
          · exact ⟨v', hm, h⟩
  rw [← List.map_reverse, Option.join_eq_some_iff, hlook ks.reverse (by rw [List.map_reverse]; exact List.nodup_reverse.2 hn)]
  constructor
  · rintro ⟨v, hm, he⟩
    have hm' := List.mem_reverse.1 hm
    rw [if_neg (hp _ hm').1] at he
    exact ⟨v, hm', he⟩
  · rintro ⟨v, hm, he⟩
    refine ⟨v, List.mem_reverse.2 hm, ?_⟩
    rw [if_neg (hp _ hm).1]; exact he

/-- A key that is new after a refresh was offered by the answer, which had status 200. -/
theorem C160_keys_only {κ : Type} (pem : Str → Option κ) (keys : List (Str × κ)) (a : HttpAns Str) (kid : Str) (k : κ)
    (h : (refreshKeys keys (uaaResp pem a)).1.lookup kid = some k) (hnew : keys.lookup kid ≠ some k) :
    ∃ t v, a = .resp 200 (some t) ∧ v ≠ [] ∧ pem v = some k ∧ OffersKey t kid v := by
  have hmem : ∃ tks, uaaResp pem a = some tks ∧ (kid, some k) ∈ tks := by
    cases hb : (refreshKeys keys (uaaResp pem a)).2 with
    | true =>
      obtain ⟨h1, h2⟩ := C68_success keys (uaaResp pem a)
      obtain ⟨tks, hr, _⟩ := h1.1 hb
      refine ⟨tks, hr, ?_⟩
      rw [h2 hb tks hr kid, Option.join_eq_some_iff] at h
      have : ∀ l : List (Str × Option κ), l.lookup kid = some (some k) → (kid, some k) ∈ l := by
        intro l
        induction l with
        | nil => intro h; cases h
        | cons q l ih =>
          obtain ⟨b, o⟩ := q
          rw [List.lookup_cons]
          by_cases he : kid = b
          · subst he; simp only [beq_self_eq_true, Option.some.injEq]; rintro rfl; exact List.mem_cons_self ..
          · have : (kid == b) = false := by simpa using he
            simp only [this]
            exact fun h => List.mem_cons_of_mem _ (ih h)
      simpa using this _ h
    | false =>
      rcases (C68_failure keys (uaaResp pem a) hb kid).1 with h' | ⟨tks, k', h1, h2, h3⟩
      · exact absurd (h'.symm.trans h) hnew
      · rw [h] at h3; injection h3 with h3; subst h3; exact ⟨tks, h1, h2⟩
  obtain ⟨tks, hr, hm⟩ := hmem
  cases a with
  | failed => cases hr
  | resp st body =>
    change (if st ≠ 200 then none else _) = some tks at hr
    by_cases hst : st ≠ 200
    · rw [if_pos hst] at hr; cases hr
    rw [if_neg hst] at hr
    obtain ⟨ks, hks, rfl⟩ := Option.map_eq_some_iff.1 hr
    obtain ⟨t, rfl, hks⟩ := Option.bind_eq_some_iff.1 hks
    rw [List.mem_map] at hm
    obtain ⟨⟨kid', v⟩, hm, he⟩ := hm
    injection he with he1 he2
    simp only at he1 he2
    subst he1
    split at he2
    · cases he2
    rename_i hv
    refine ⟨t, v, by rw [not_not.1 hst], hv, he2, ?_⟩
    obtain ⟨fs, hks, hb⟩ := struct_begins hks
    obtain ⟨xs, h1, j, h2, h3⟩ := list_mem hks _ hm
    obtain ⟨gs, h4, h3⟩ := Option.bind_eq_some_iff.1 h3
    obtain ⟨g, h5, h3⟩ := Option.bind_eq_some_iff.1 h3
    obtain ⟨v', h6, h7⟩ := Option.map_eq_some_iff.1 h3
    injection h7 with h7 h8
    subst h7; subst h8
    have hf := field_mem (by decide) h1
    have hbo : BeginsObject t fs := by
      rcases hb with hb | rfl
      · exact hb
      · obtain ⟨p, hp, _⟩ := hf; cases hp
    have hg := (text_mem (by decide) h6).resolve_right hv
    refine ⟨fs, xs, gs, hbo, hf, ?_, hg, text_mem (by decide) h5⟩
    cases j with
    | obj fs' => cases h4; exact h2
    | null => cases h4; obtain ⟨p, hp, _⟩ := hg; cases hp
    | bool => cases h4
    | num => cases h4
    | str => cases h4
    | arr => cases h4

/-! ## Contents of tokens -/

private theorem numeral_lt {s : Str} {n : Nat} (h : Numeral s n) : n < 10 ^ s.length := by
  induction h with
  | one h => simpa using h
  | snoc hs h ih =>
    rw [List.length_append, List.length_singleton, Nat.pow_succ]
    omega

private theorem seconds_exact {t : Str} {n : Nat} (h : Seconds t n) :
    ∃ x, parseFloat t = some x ∧ x.toInt64 = n ∧ n < 10 ^ 15 := by
  obtain ⟨ip, fp, m, ht, hm, hl, rfl⟩ := h
  have hlt := numeral_lt hm
  have hm15 : m < 10 ^ 15 := lt_of_lt_of_le hlt (Nat.pow_le_pow_right (by omega) hl)
  have hfp : fp.length ≤ 15 := by rw [List.length_append] at hl; omega
  have hd : 10 ^ fp.length ≤ 10 ^ 15 := Nat.pow_le_pow_right (by omega) hfp
  have hpos : 0 < 10 ^ fp.length := Nat.pow_pos (by omega)
  have hfl := round_floor m (10 ^ fp.length) (by omega) (by omega) hpos
  have hparse : parseFloat t = f64Result (f64Round false m (10 ^ fp.length)) := by
    rcases ht with ⟨rfl, rfl⟩ | rfl
    · rw [List.append_nil] at hm; exact parseFloat_int hm
    · exact (parseFloat_point hm).1
  have hle : m / 10 ^ fp.length ≤ m := Nat.div_le_self ..
  refine ⟨f64Round false m (10 ^ fp.length), ?_, hfl, by omega⟩
  rw [hparse]
  cases hx : f64Round false m (10 ^ fp.length) with
  | inf b =>
    rw [hx] at hfl
    have h0 := Int.natCast_nonneg (m / 10 ^ fp.length)
    rw [← hfl] at h0
    exact absurd h0 (show ¬ (0 : Int) ≤ -2 ^ 63 by decide)
  | fin => rfl
  | nan => rfl

private theorem scopes_some (scopes : List Str) : traverse scopeOf (scopes.map .str) = some scopes := by
  induction scopes with
  | nil => rfl
  | cons s l ih => rw [List.map_cons, traverse, ih]; rfl

/-- The contents of a token are read as they were written: its scopes, and the second in
which it expires. -/
theorem C160_token (t : Str) (scopes : List Str) (n : Nat) (h : SaysToken t scopes n) :
    tokenPayload t = some ⟨scopes, n * 1000000000⟩ := by
  obtain ⟨fs, hd, ⟨x, hv⟩, hs, he⟩ := h
  unfold tokenPayload
  rw [decode_doc hd]
  have h1 : structList scopeOf (structField fs "scope") = some scopes := by
    rcases hs with hs | ⟨rfl, hs⟩
    · rw [field_some (by decide) hs]; exact scopes_some scopes
    · rcases field_lacks (by decide) hs with h | h <;> rw [h] <;> rfl
  have h2 : ∃ y, structFloat (structField fs "exp") = some y ∧ y.toInt64 = n ∧ n < 10 ^ 15 := by
    rcases he with ⟨s, h1, h2⟩ | ⟨rfl, h1⟩
    · rw [field_some (by decide) h1]; exact seconds_exact h2
    · rcases field_lacks (by decide) h1 with h | h <;> rw [h] <;> exact ⟨_, rfl, by decide, by decide⟩
  obtain ⟨y, h2, h3, h4⟩ := h2
  simp only [structObj, Option.bind_some, text_some (by decide) hv, h1, h2, Option.map_some, h3]
  have hu : unixTime (n : Int) = n * 1000000000 := by
    unfold unixTime wrap64
    omega
  rw [hu]

/-- A token whose signature verifies lets its user in exactly until the second written in it is
over, as an administrator exactly if one of the two scopes is written in it. -/
theorem C160_access {κ : Type} (refresh : Uaa κ → Uaa κ) (header : Str → Option JwtHeader)
    (verify : κ → Str → Option Str) (now : Int) (s : Uaa κ) (token kid : Str) (key : κ) (p : Str)
    (scopes : List Str) (n : Nat) (ht : token ≠ [])
    (hh : header (trimBearer token) = some ⟨some "RS256".toList, some kid⟩) (hk : s.keys.lookup kid = some key)
    (hv : verify key (trimBearer token) = some p) (hp : SaysToken p scopes n) (c : UserCtx) :
    readToken refresh header verify tokenPayload now trimBearer s token = some (.ok c, s) ↔
      now ≤ n * 1000000000 ∧ c.token = token ∧ c.expiresAt = n * 1000000000 ∧
        (c.isAdmin = true ↔ "doppler.firehose".toList ∈ scopes ∨ "logs.admin".toList ∈ scopes) := by
  rw [C70_accept]
  constructor
  · rintro ⟨_, kid', key', p', d, h1, h2, h3, h4, h5, h6, h7, h8, h9⟩
    rw [hh] at h1
    cases h1
    rw [hk] at h3; cases h3
    rw [hv] at h4; cases h4
    rw [C160_token p scopes n hp] at h5; cases h5
    exact ⟨h6, h7, h8, h9⟩
  · rintro ⟨h1, h2, h3, h4⟩
    refine ⟨ht, kid, key, p, _, hh, ?_, hk, hv, C160_token p scopes n hp, h1, h2, h3, h4⟩
    rw [hk]; rfl

private theorem payload_names {p : Str} {d : TokenPayload} (h5 : tokenPayload p = some d) :
    ∀ x ∈ d.scope, x ≠ [] → NamesScope p x := by
  intro x hx hne
  obtain ⟨fs, h5, hb⟩ := struct_begins h5
  obtain ⟨_, _, h5⟩ := Option.bind_eq_some_iff.1 h5
  obtain ⟨sc, h6, h5⟩ := Option.bind_eq_some_iff.1 h5
  obtain ⟨_, _, rfl⟩ := Option.map_eq_some_iff.1 h5
  obtain ⟨xs, h7, j, h8, h10⟩ := list_mem h6 x hx
  have hf := field_mem (by decide) h7
  have hbo : BeginsObject p fs := by
    rcases hb with hb | rfl
    · exact hb
    · obtain ⟨q, hq, _⟩ := hf; cases hq
  refine ⟨fs, xs, hbo, hf, ?_⟩
  cases j with
  | str y => cases h10; exact h8
  | null => cases h10; exact absurd rfl hne
  | bool => cases h10
  | num => cases h10
  | arr => cases h10
  | obj => cases h10

/-- Whoever is let in as an administrator has one of the two scopes written in the token, in
the part that is signed. -/
theorem C160_admin_only {κ : Type} (refresh : Uaa κ → Uaa κ) (header : Str → Option JwtHeader)
    (verify : κ → Str → Option Str) (now : Int) (s s' : Uaa κ) (token : Str) (c : UserCtx)
    (h : readToken refresh header verify tokenPayload now trimBearer s token = some (.ok c, s'))
    (hc : c.isAdmin = true) :
    ∃ kid key p, s'.keys.lookup kid = some key ∧ verify key (trimBearer token) = some p ∧
      (NamesScope p "doppler.firehose".toList ∨ NamesScope p "logs.admin".toList) := by
  obtain ⟨_, kid, key, p, d, _, _, h3, h4, h5, _, _, _, h9⟩ := (C70_accept ..).1 h
  refine ⟨kid, key, p, h3, h4, ?_⟩
  rcases h9.1 hc with h | h
  · exact .inl (payload_names h5 _ h (by decide))
  · exact .inr (payload_names h5 _ h (by decide))

/-- `ids` is what a CAPI client makes of these answers to its requests for applications and then
for service instances. -/
def ListedBy (parse : Str → Option Url) (answers : List (HttpAns Str)) (ids : List Str) : Prop :=
  ∃ (u u' : Url) (tr tr' : List (Url × HttpAns Str)) (apps services : Option (List Resource)),
     Paginated u (tr.map fun p => (p.1, capiResp parse p.2)) apps ∧
    Paginated u' (tr'.map fun p => (p.1, capiResp parse p.2)) services ∧
    answers = (tr ++ tr').map Prod.snd ∧ ids = availableIds apps services

/-- A Read that the auth proxy sends on was asked for with a token that a key of UAA verifies;
and either the signed part names one of the two scopes, or an answer of CAPI with status 200 that
was got with this very token lists the source: an answer to the requests made for this Read, or to
requests made less than the expiration interval before it. -/
theorem C160_read {κ : Type} (refresh : Uaa κ → Uaa κ) (header : Str → Option JwtHeader)
    (verify : κ → Str → Option Str) (now : Int) (s : Uaa κ) (parse : Str → Option Url)
    (interval t t' : Int) (evs : List CapiEvent) (cs : CapiState) (hrun : CapiRun interval evs cs)
    (answers : Int → Str → Str → List (HttpAns Str))
    (hev : ∀ t0 sid tok ids b, CapiEvent.fetched t0 sid tok ids b ∈ evs → ListedBy parse (answers t0 sid tok) ids)
    (tok id : Str) (hid : id ≠ []) (capi : List Str) (nowAnswers : List (HttpAns Str))
    (hcapi : ListedBy parse nowAnswers capi)
    (h : readHandler (tokenUser refresh header verify tokenPayload now s)
      (fun id tk => (isAuthorized interval cs.cache t t' id tk capi).1) tok id = .forward id) :
    ∃ kid key p d, (s.keys.lookup kid = some key ∨ (refresh s).keys.lookup kid = some key) ∧
      verify key (trimBearer tok) = some p ∧ tokenPayload p = some d ∧ now ≤ d.exp ∧
      (NamesScope p "doppler.firehose".toList ∨ NamesScope p "logs.admin".toList ∨
        (∃ text, .resp 200 (some text) ∈ nowAnswers ∧ ListsId text id) ∨
        ∃ t0 sid text, .resp 200 (some text) ∈ answers t0 sid tok ∧ ListsId text id ∧ t < t0 + interval) := by
  obtain ⟨kid, key, p, d, -, h2, h3, h4, h5, h6⟩ :=
    C61_chain refresh header verify tokenPayload now s interval t t' evs cs hrun capi tok id h
  have listed : ∀ as ids, ListedBy parse as ids → id ∈ ids → ∃ text, .resp 200 (some text) ∈ as ∧ ListsId text id := by
    rintro as ids ⟨u, u', tr, tr', apps, services, h1, h2, rfl, rfl⟩ hm
    obtain ⟨q, hq, text, hqt, hl⟩ := C160_ids_only parse u u' tr tr' apps services h1 h2 id hm hid
    exact ⟨text, List.mem_map.2 ⟨q, hq, hqt⟩, hl⟩
  refine ⟨kid, key, p, d, h2, h3, h4, h5, ?_⟩
  rcases h6 with h | h | h | ⟨t0, sid, ids, b, h7, h8, h9⟩
  · exact .inl (payload_names h4 _ h (by decide))
  · exact .inr (.inl (payload_names h4 _ h (by decide)))
  · exact .inr (.inr (.inl (listed _ _ hcapi h)))
  · obtain ⟨text, h10, h11⟩ := listed _ _ (hev _ _ _ _ _ h7) h8
    exact .inr (.inr (.inr ⟨t0, sid, text, h10, h11, h9⟩))

private theorem blank_nil : Blank [] := by unfold Blank; decide

/-! ## Examples -/

/-- A letter stands for itself. -/
private theorem plain_text (s : Str) (h : ∀ c ∈ s, c ≠ '"' ∧ c ≠ '\\' ∧ 32 ≤ c.toNat) : StrText s s := by
  induction s with
  | nil => exact .nil
  | cons c s ih =>
    have := h c (List.mem_cons_self ..)
    exact .plain this.1 this.2.1 this.2.2 (ih fun d hd => h d (List.mem_cons_of_mem _ hd))

instance (c d : Char) : Decidable (Uncased c d) := inferInstanceAs (Decidable (_ ∨ _))
instance (k : String) (name : Str) : Decidable (Named k name) := inferInstanceAs (Decidable (List.Forall₂ _ _ _))

private theorem name_text (k : String) (h : ∀ c ∈ k.toList, c ≠ '"' ∧ c ≠ '\\' ∧ 32 ≤ c.toNat) (v : Json) (t : Str) (hv : JText v t) :
    JMember k.toList v ('"' :: (k.toList ++ '"' :: ':' :: t)) := by
  have := JMember.mk (b1 := []) (b2 := []) (b3 := []) (b4 := []) blank_nil (plain_text _ h) blank_nil blank_nil hv blank_nil
  simpa using this

private theorem word_text (k : String) (h : ∀ c ∈ k.toList, c ≠ '"' ∧ c ≠ '\\' ∧ 32 ≤ c.toNat) :
    JText (.str k.toList) ('"' :: (k.toList ++ ['"'])) := .str (plain_text _ h)

/-- A page with one application, a total nobody asks for, and a next page. -/
example : SaysPage "{\"pagination\":{\"total_results\":2,\"next\":{\"href\":\"/p2\"}},\"resources\":[{\"guid\":\"a\",\"name\":\"x\"}]}".toList
    [⟨"a".toList, "x".toList⟩] "/p2".toList := by
  refine ⟨[("pagination".toList, .obj [("total_results".toList, .num "2".toList),
    ("next".toList, .obj [("href".toList, .str "/p2".toList)])]),
    ("resources".toList, .arr [.obj [("guid".toList, .str "a".toList), ("name".toList, .str "x".toList)]])], ?_, ?_, ?_⟩
  · refine ⟨[], _, [], ?_, blank_nil, .obj (.more (name_text "pagination" (by decide) _ _
      (.obj (.more (name_text "total_results" (by decide) _ _ (.num ?_))
        (.one (name_text "next" (by decide) _ _ (.obj (.one (name_text "href" (by decide) _ _ (word_text "/p2" (by decide)))))))))) 
      (.one (name_text "resources" (by decide) _ _ (.arr (.one (b := []) (a := []) blank_nil
        (.obj (.more (name_text "guid" (by decide) _ _ (word_text "a" (by decide)))
          (.one (name_text "name" (by decide) _ _ (word_text "x" (by decide)))))) blank_nil))))), blank_nil⟩
    · rfl
    · exact ⟨[], "2".toList, [], [], rfl, .inl rfl, .inr ⟨⟨by decide, by decide⟩, by decide⟩, .inl rfl, .inl rfl⟩
  · exact .inl ⟨_, _, ⟨[], _, _, rfl, by decide, by decide⟩, ⟨[_], _, [], rfl, by decide, by decide⟩, .inl ⟨[], _, [], rfl, by decide, by decide⟩⟩
  · exact .inl ⟨_, ⟨[_], _, [], rfl, by decide, by decide⟩, .cons ⟨_, rfl, .inl ⟨[], _, _, rfl, by decide, by decide⟩,
      .inl ⟨[_], _, [], rfl, by decide, by decide⟩⟩ .nil⟩

/-- A token of an administrator, and keys. -/
example : SaysToken "{\"scope\":[\"logs.admin\"],\"exp\":17}".toList ["logs.admin".toList] 17 ∧
    SaysKeys "{\"keys\":[{\"KID\":\"k1\",\"value\":\"pem\"}]}".toList [("k1".toList, "pem".toList)] := by
  constructor
  · refine ⟨[("scope".toList, .arr [.str "logs.admin".toList]), ("exp".toList, .num "17".toList)], ?_, ?_, ?_, ?_⟩
    · refine ⟨[], _, [], ?_, blank_nil, .obj (.more (name_text "scope" (by decide) _ _ (.arr (.one (b := []) (a := []) blank_nil
        (word_text "logs.admin" (by decide)) blank_nil))) (.one (name_text "exp" (by decide) _ _ (.num ?_)))), blank_nil⟩
      · rfl
      · exact ⟨[], "17".toList, [], [], rfl, .inl rfl, .inr ⟨⟨by decide, by decide⟩, by decide⟩, .inl rfl, .inl rfl⟩
    · exact ⟨[], .inr ⟨rfl, .inl (by decide)⟩⟩
    · exact .inl ⟨[], _, [_], rfl, by decide, by decide⟩
    · exact .inl ⟨_, ⟨[_], _, [], rfl, by decide, by decide⟩, ['1', '7'], [], 17, .inl ⟨rfl, rfl⟩,
        .snoc (s := ['1']) (n := 1) (.one (d := 1) (by omega)) (d := 7) (by omega), by decide, by decide⟩
  · refine ⟨[("keys".toList, .arr [.obj [("KID".toList, .str "k1".toList), ("value".toList, .str "pem".toList)]])], ?_, ?_⟩
    · refine ⟨[], _, [], ?_, blank_nil, .obj (.one (name_text "keys" (by decide) _ _ (.arr (.one (b := []) (a := []) blank_nil
        (.obj (.more (name_text "KID" (by decide) _ _ (word_text "k1" (by decide)))
          (.one (name_text "value" (by decide) _ _ (word_text "pem" (by decide)))))) blank_nil)))), blank_nil⟩
      rfl
    · exact .inl ⟨_, ⟨[], _, [], rfl, by decide, by decide⟩, .cons ⟨_, rfl, .inl ⟨[], _, _, rfl, by decide, by decide⟩,
        .inl ⟨[_], _, [], rfl, by decide, by decide⟩⟩ .nil⟩

end LogCache
