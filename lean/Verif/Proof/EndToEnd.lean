import Verif.Spec.EndToEnd
import Verif.Spec.Read
import Mathlib.Data.List.Forall2
import Mathlib.Tactic

/-! # Names of envelopes, and reads on names -/

namespace LogCache
open Spec

theorem f64Code_inj {x y : F64} (h : f64Code x = f64Code y) : x = y := by
  unfold f64Code at h
  have := Encodable.encode_injective h
  cases x <;> cases y <;> simp_all

theorem textCode_inj {m n : Nat} (h : textCode m = textCode n) : m = n := by
  have := congrArg List.length h
  simpa [textCode] using this

theorem charNat_inj : Function.Injective Char.toNat := by
  intro a b h
  exact Char.toNat_inj.1 h

theorem uint8Nat_inj : Function.Injective UInt8.toNat := by
  intro a b h
  exact UInt8.toNat_inj.1 h

theorem tagCode_inj {x y : TagValue} (h : tagCode x = tagCode y) : x = y := by
  unfold tagCode at h
  have := Encodable.encode_injective (textCode_inj h)
  cases x <;> cases y <;> simp_all
  · exact (List.map_injective_iff.2 charNat_inj) this
  · exact f64Code_inj this

theorem logCode_inj {p q : Option (List UInt8)} {s t : Int} (h : logCode p s = logCode q t) : p = q ∧ s = t := by
  unfold logCode at h
  have := Encodable.encode_injective (textCode_inj h)
  simp only [Prod.mk.injEq] at this
  refine ⟨?_, this.2⟩
  exact Option.map_injective (List.map_injective_iff.2 uint8Nat_inj) this.1

theorem gauges_inj {a b : List (Str × WireGauge)}
    (h : a.map (fun p => (p.1, (⟨p.2.unit, (f64Code p.2.value : Int)⟩ : GaugeValue))) =
      b.map (fun p => (p.1, ⟨p.2.unit, (f64Code p.2.value : Int)⟩))) : a = b := by
  refine List.map_injective_iff.2 ?_ h
  rintro ⟨k, u, v⟩ ⟨k', u', v'⟩ e
  simp only [Prod.mk.injEq, GaugeValue.mk.injEq, Int.natCast_inj] at e
  obtain ⟨rfl, rfl, e⟩ := e
  rw [f64Code_inj e]

theorem messageCode_inj {x y : WireMessage} (h : messageCode x = messageCode y) : x = y := by
  cases x <;> cases y <;> simp only [messageCode, Message.log.injEq, Message.counter.injEq, Message.gauge.injEq,
    Message.timer.injEq, Message.event.injEq, reduceCtorEq] at h
  · obtain ⟨rfl, rfl⟩ := logCode_inj h.1; rfl
  · obtain ⟨rfl, rfl, rfl⟩ := h; rfl
  · rw [gauges_inj h]
  · obtain ⟨rfl, rfl, rfl⟩ := h; rfl
  · obtain ⟨rfl, rfl⟩ := h; rfl

theorem envelopeCode_inj : Function.Injective envelopeCode := by
  rintro ⟨t, s, i, d, g, m⟩ ⟨t', s', i', d', g', m'⟩ h
  simp only [envelopeCode, Envelope.mk.injEq] at h
  obtain ⟨rfl, rfl, rfl, hd, rfl, hm⟩ := h
  have e1 : d = d' := by
    refine List.map_injective_iff.2 ?_ hd
    rintro ⟨k, v⟩ ⟨k', v'⟩ e
    simp only [Prod.mk.injEq] at e
    obtain ⟨rfl, e⟩ := e
    rw [tagCode_inj e]
  have e2 : m = m' := Option.map_injective (fun a b => messageCode_inj) hm
  rw [e1, e2]

/-! ## Reads on names -/

theorem kind_code (e : WireEnvelope) : kind (envelopeCode e) = wireKind e := by
  unfold kind wireKind envelopeCode
  cases e.message with
  | none => rfl
  | some m => cases m <;> rfl

theorem names_code (e : WireEnvelope) : names (envelopeCode e) = wireNames e := by
  unfold names wireNames envelopeCode
  cases e.message with
  | none => rfl
  | some m =>
    cases m <;> simp [messageCode]

theorem project_code (nf : Option (Str → Bool)) (e : WireEnvelope) :
    project nf (envelopeCode e) = (wireProject nf e).map envelopeCode := by
  cases nf with
  | none => rfl
  | some m =>
    unfold project wireProject
    simp only [names_code]
    split
    · rcases hm : e.message with _ | (_ | _ | ms | _ | _) <;> simp [restrict, envelopeCode, hm, messageCode, List.filter_map]
      rfl
    · rfl

theorem filter_code (f : Envelope → Bool) (g : WireEnvelope → Bool) (h : ∀ e, f (envelopeCode e) = g e)
    (l : List WireEnvelope) : (l.map envelopeCode).filter f = (l.filter g).map envelopeCode := by
  rw [List.filter_map]
  congr 1
  apply List.filter_congr
  intro e _
  exact h e

/-- The answer on names is the answer on the envelopes of the wire. -/
theorem wanted_code (compile : Str → Option (Str → Bool)) (now : Int) (q : ReadRequest) (log : List WireEnvelope) :
    ((((((if q.descending then (log.map envelopeCode).reverse else log.map envelopeCode).filter
        (inWindow q.start (if q.stop = 0 then now else q.stop))).filterMap
        (project (if q.nameFilter = [] then none else compile q.nameFilter))).filter
        (fun e => decide (∀ t ∈ q.types, t = .any) || decide (∃ t ∈ q.types, kind e = some t)))).take
      (if q.limit = 0 then 100 else q.limit).toNat) = (wanted compile now q log).map envelopeCode := by
  unfold wanted
  have h1 : (if q.descending then (log.map envelopeCode).reverse else log.map envelopeCode) =
      (if q.descending then log.reverse else log).map envelopeCode := by
    split
    · rw [List.map_reverse]
    · rfl
  rw [h1]
  generalize (if q.descending then log.reverse else log) = l
  rw [filter_code _ (fun e => decide (q.start ≤ e.timestamp) &&
    decide (e.timestamp < if q.stop = 0 then now else q.stop)) (fun e => rfl)]
  generalize l.filter _ = l
  rw [List.filterMap_map]
  have h2 : l.filterMap (project (if q.nameFilter = [] then none else compile q.nameFilter) ∘ envelopeCode) =
      (l.filterMap (wireProject (if q.nameFilter = [] then none else compile q.nameFilter))).map envelopeCode := by
    rw [List.map_filterMap]
    apply List.filterMap_congr
    intro e _
    exact project_code _ e
  rw [h2]
  generalize l.filterMap _ = l
  rw [filter_code _ (fun e => decide (∀ t ∈ q.types, t = .any) || decide (∃ t ∈ q.types, wireKind e = some t))
    (fun e => by rw [kind_code])]
  rw [List.map_take]

/-- What was posted, on names. -/
theorem posted_code {evs : List CEvent} {posts : List SendReq} (h : Posted evs posts)
    (hv : ∀ r ∈ posts, ∀ e ∈ r.envelopes.getD [], ValidEnvelope e)
    (hdec : ∀ w r : SendReq, SameBatch? w.envelopes r.envelopes → w.localOnly = r.localOnly →
      (∀ es, r.envelopes = some es → ∀ e ∈ es, ValidEnvelope e) → (sendReqProto.encode w).length < 2 ^ 64 →
      sendReqProto.decode (sendReqProto.encode w) = some r) (src : Str) :
    clientSent evs src = (postedFor posts src).map envelopeCode := by
  unfold Posted at h
  have hf : clientSent evs src = clientSent (evs.filter fun | .client _ _ => true | _ => false) src := by
    clear h
    unfold clientSent
    induction evs with
    | nil => rfl
    | cons ev evs ih =>
      cases ev <;> simp [ih]
  rw [hf]
  generalize evs.filter _ = l at h
  clear hf
  unfold postedFor
  induction h with
  | nil => rfl
  | @cons ev r l posts h _ ih =>
    obtain ⟨i, w, r', h1, h2, h3, h4, rfl⟩ := h
    have hr := hdec w r h1 h2 (fun es he e hm => hv r List.mem_cons_self e (by rw [he]; exact hm))
      (lt_of_le_of_lt h3 (by unfold grpcMaxMessage; norm_num))
    rw [hr] at h4
    injection h4 with h4
    subst h4
    have ih' := ih (fun r' hr' => hv r' (List.mem_cons_of_mem _ hr'))
    unfold clientSent at ih' ⊢
    rw [List.flatMap_cons, ih', List.flatMap_cons, List.filter_append, List.map_append]
    congr 1
    simp only [sendCode]
    cases hre : r.envelopes with
    | none => rfl
    | some es =>
      simp only [Option.map_some, Option.getD_some]
      exact filter_code _ _ (fun e => rfl) es

theorem SameEnvelope.self {e : WireEnvelope} (h : Arrived e) : SameEnvelope e e := by
  refine ⟨rfl, rfl, rfl, List.Perm.refl _, List.Perm.refl _, ?_⟩
  cases hm : e.message with
  | none => trivial
  | some m =>
    cases m with
    | log p t =>
      refine ⟨?_, rfl⟩
      unfold SamePayload
      rw [if_neg]
      rintro rfl
      exact h.2 t hm
    | gauge ms => exact List.Perm.refl _
    | _ => rfl

theorem KeysInOrder.filter {α : Type} {l : List (Str × α)} (h : KeysInOrder l) (f : Str × α → Bool) :
    KeysInOrder (l.filter f) := by
  unfold KeysInOrder at h ⊢
  exact h.sublist List.filter_sublist

theorem arrived_project {nf : Option (Str → Bool)} {e e' : WireEnvelope} (h : Arrived e)
    (hp : wireProject nf e = some e') : Arrived e' := by
  unfold wireProject at hp
  split at hp
  · cases hp; exact h
  · split at hp
    · split at hp
      · rename_i ms hm
        cases hp
        obtain ⟨⟨h1, h2, h3, h4, h5⟩, h6⟩ := h
        have := h5 _ hm
        refine ⟨⟨h1, h2, h3, h4, ?_⟩, ?_⟩
        · intro m hm'
          cases hm'
          exact ⟨this.1.filter _, fun p hp => this.2 p (List.mem_filter.1 hp).1⟩
        · intro t; simp
      · cases hp; exact h
    · cases hp

theorem arrived_wanted {compile : Str → Option (Str → Bool)} {now : Int} {q : ReadRequest} {log : List WireEnvelope}
    (h : ∀ e ∈ log, Arrived e) : ∀ e ∈ wanted compile now q log, Arrived e := by
  intro e he
  unfold wanted at he
  have h1 := List.mem_of_mem_take he
  have h2 := (List.mem_filter.1 h1).1
  obtain ⟨a, ha, hp⟩ := List.mem_filterMap.1 h2
  refine arrived_project (h a ?_) hp
  have := (List.mem_filter.1 ha).1
  split at this
  · exact List.mem_reverse.1 this
  · exact this

/-! ## Sizes -/

theorem encLen_append (a b : List (Nat × WireVal)) :
    (encFields (a ++ b)).length = (encFields a).length + (encFields b).length := by
  induction a with
  | nil => simp [encFields]
  | cons p a ih =>
    obtain ⟨k, v⟩ := p
    simp only [List.cons_append, encFields, List.length_append, ih]
    omega

theorem encLen_perm {a b : List (Nat × WireVal)} (h : a.Perm b) : (encFields a).length = (encFields b).length := by
  induction h with
  | nil => rfl
  | cons x _ ih => obtain ⟨k, v⟩ := x; simp only [encFields, List.length_append, ih]
  | swap x y l =>
    obtain ⟨k, v⟩ := x; obtain ⟨k', v'⟩ := y
    simp only [encFields, List.length_append]
    omega
  | trans _ _ h1 h2 => exact h1.trans h2

theorem encLen_bytes (k : Nat) {a b : List UInt8} (h : a.length = b.length) :
    (encFields [(k, .bytes a)]).length = (encFields [(k, .bytes b)]).length := by
  simp only [encFields, List.length_append, WireVal.wireType, WireVal.body, h]

theorem envelope_len {w e : WireEnvelope} (h : SameEnvelope w e) :
    (wireEnvelopeProto.encode w).length = (wireEnvelopeProto.encode e).length := by
  obtain ⟨h1, h2, h3, h4, h5, h6⟩ := h
  have hm : (encFields ((w.message.map wireMessageFields).getD [])).length =
      (encFields ((e.message.map wireMessageFields).getD [])).length := by
    cases hw : w.message with
    | none =>
      cases he : e.message with
      | none => rfl
      | some m => rw [hw, he] at h6; exact h6.elim
    | some m' =>
      cases he : e.message with
      | none => rw [hw, he] at h6; exact h6.elim
      | some m =>
        rw [hw, he] at h6
        simp only [Option.map_some, Option.getD_some]
        cases m' <;> cases m <;> simp only [SameMessage, reduceCtorEq, WireMessage.counter.injEq, WireMessage.timer.injEq,
          WireMessage.event.injEq] at h6
        · obtain ⟨hp, rfl⟩ := h6
          apply encLen_bytes
          unfold SamePayload at hp
          subst hp
          split
          · rename_i hx
            subst hx
            rfl
          · rfl
        · obtain ⟨rfl, rfl, rfl⟩ := h6; rfl
        · apply encLen_bytes
          exact encLen_perm (List.Perm.map _ h6)
        · obtain ⟨rfl, rfl, rfl⟩ := h6; rfl
        · obtain ⟨rfl, rfl⟩ := h6; rfl
  show (encFields (wireEnvelopeProto.fields w)).length = (encFields (wireEnvelopeProto.fields e)).length
  simp only [wireEnvelopeProto, encLen_append, h1, h2, h3, hm]
  have e4 : (encFields (mapFields 3 tagValueProto.encode w.deprecatedTags)).length =
      (encFields (mapFields 3 tagValueProto.encode e.deprecatedTags)).length := encLen_perm (List.Perm.map _ h4)
  have e5 : (encFields (mapFields 9 utf8Bytes w.tags)).length = (encFields (mapFields 9 utf8Bytes e.tags)).length :=
    encLen_perm (List.Perm.map _ h5)
  rw [e4, e5]

/-- The size of an answer does not depend on the order of maps. -/
theorem answer_len {w : Option (List WireEnvelope)} {ws : List WireEnvelope} (h : SameBatch? w (some ws)) :
    (readRespProto.encode w).length = (readRespProto.encode (some ws)).length := by
  cases w with
  | none => exact h.elim
  | some es =>
    apply encLen_bytes
    show (encFields (es.map _)).length = (encFields (ws.map _)).length
    have h' : List.Forall₂ SameEnvelope es ws := h
    clear h
    induction h' with
    | nil => rfl
    | cons h _ ih =>
      simp only [List.map_cons, encFields, List.length_append, WireVal.wireType, WireVal.body, envelope_len h, ih]

theorem putVarint_len {k : Nat} : ∀ {n : Nat}, n < 128 ^ (k + 1) → (putVarint n).length ≤ k + 1 := by
  induction k with
  | zero =>
    intro n h
    unfold putVarint
    rw [if_pos (by simpa using h)]
    simp
  | succ k ih =>
    intro n h
    unfold putVarint
    split
    · simp
    · have : n / 128 < 128 ^ (k + 1) := by
        rw [Nat.div_lt_iff_lt_mul (by omega)]
        rw [pow_succ] at h
        exact h
      have := ih this
      simp only [List.length_cons]
      omega

theorem putVarint_mono {m : Nat} : ∀ {n : Nat}, m ≤ n → (putVarint m).length ≤ (putVarint n).length := by
  induction m using Nat.strong_induction_on with
  | _ m ih =>
    intro n h
    rw [putVarint.eq_def m, putVarint.eq_def n]
    split
    · split <;> simp
    · rw [if_neg (by omega)]
      have := ih (m / 128) (by omega) (Nat.div_le_div_right (c := 128) h)
      simpa using this

theorem encLen_sublist {a b : List (Nat × WireVal)} (h : a.Sublist b) : (encFields a).length ≤ (encFields b).length := by
  induction h with
  | slnil => exact le_refl _
  | cons p _ ih => obtain ⟨k, v⟩ := p; simp only [encFields, List.length_append]; omega
  | cons_cons p _ ih => obtain ⟨k, v⟩ := p; simp only [encFields, List.length_append]; omega

theorem encLen_bytes_le (k : Nat) {a b : List UInt8} (h : a.length ≤ b.length) :
    (encFields [(k, .bytes a)]).length ≤ (encFields [(k, .bytes b)]).length := by
  have := putVarint_mono h
  simp only [encFields, List.length_append, WireVal.wireType, WireVal.body]
  omega

/-- A name filter makes no envelope larger. -/
theorem project_len {nf : Option (Str → Bool)} {e e' : WireEnvelope} (h : wireProject nf e = some e') :
    (wireEnvelopeProto.encode e').length ≤ (wireEnvelopeProto.encode e).length := by
  unfold wireProject at h
  split at h
  · cases h; exact le_refl _
  · split at h
    · split at h
      · rename_i ms hm
        cases h
        show (encFields (wireEnvelopeProto.fields _)).length ≤ (encFields (wireEnvelopeProto.fields _)).length
        simp only [wireEnvelopeProto, encLen_append, hm, Option.map_some, Option.getD_some]
        have hf : ∀ f : Str × WireGauge → Bool, (encFields (wireMessageFields (.gauge (ms.filter f)))).length ≤
            (encFields (wireMessageFields (.gauge ms))).length := fun f =>
          encLen_bytes_le 6 (encLen_sublist (List.Sublist.map _ List.filter_sublist))
        exact Nat.add_le_add_left (Nat.add_le_add_left (Nat.add_le_add_left (Nat.add_le_add_left (Nat.add_le_add_left (hf _) _) _) _) _) _
      · cases h; exact le_refl _
    · cases h

theorem wanted_len {compile : Str → Option (Str → Bool)} {now : Int} {q : ReadRequest} {log : List WireEnvelope} {B : Nat}
    (h : ∀ e ∈ log, (wireEnvelopeProto.encode e).length ≤ B) :
    (wanted compile now q log).length ≤ (if q.limit = 0 then 100 else q.limit).toNat ∧
    ∀ e ∈ wanted compile now q log, (wireEnvelopeProto.encode e).length ≤ B := by
  refine ⟨?_, fun e he => ?_⟩
  · unfold wanted
    rw [List.length_take]
    exact Nat.min_le_left _ _
  · unfold wanted at he
    have h1 := List.mem_of_mem_take he
    have h2 := (List.mem_filter.1 h1).1
    obtain ⟨a, ha, hp⟩ := List.mem_filterMap.1 h2
    refine le_trans (project_len hp) (h a ?_)
    have := (List.mem_filter.1 ha).1
    split at this
    · exact List.mem_reverse.1 this
    · exact this

theorem answer_room {ws : List WireEnvelope} {B M : Nat} (h : ∀ e ∈ ws, (wireEnvelopeProto.encode e).length ≤ B)
    (hB : ws.length * (B + 5) + 5 ≤ M) (hM : M ≤ grpcMaxMessage) : (readRespProto.encode (some ws)).length ≤ M := by
  have hv : ∀ n, n ≤ grpcMaxMessage → (putVarint n).length ≤ 4 := fun n hn =>
    putVarint_len (k := 3) (lt_of_le_of_lt hn (by unfold grpcMaxMessage; norm_num))
  have h1 : ∀ (t : List (Nat × WireVal)) (bs : List UInt8), bs.length ≤ grpcMaxMessage →
      (encFields ((1, .bytes bs) :: t)).length ≤ bs.length + 5 + (encFields t).length := by
    intro t bs hb
    have := hv _ hb
    have h8 : (putVarint (1 * 8 + 2)).length = 1 := by unfold putVarint; rfl
    simp only [encFields, List.length_append, WireVal.wireType, WireVal.body, h8]
    omega
  have h2 : (batchProto.encode ws).length ≤ ws.length * (B + 5) := by
    show (encFields (ws.map fun x => (1, .bytes (wireEnvelopeProto.encode x)))).length ≤ _
    have hB' : ws.length * (B + 5) ≤ grpcMaxMessage := by omega
    clear hB
    induction ws with
    | nil => simp [encFields]
    | cons e ws ih =>
      have he := h e List.mem_cons_self
      rw [List.length_cons, Nat.add_mul, one_mul] at hB'
      have := ih (fun e he => h e (List.mem_cons_of_mem _ he)) (by omega)
      have h3 := h1 (ws.map fun x => (1, .bytes (wireEnvelopeProto.encode x))) (wireEnvelopeProto.encode e) (by omega)
      rw [List.map_cons, List.length_cons, Nat.add_mul, one_mul]
      omega
  have h3 := h1 [] (batchProto.encode ws) (by omega)
  show (encFields [(1, .bytes (batchProto.encode ws))]).length ≤ _
  simp only [encFields, List.length_nil] at h3 ⊢
  omega

theorem answer_bound {ws : List WireEnvelope} {B : Nat} (h : ∀ e ∈ ws, (wireEnvelopeProto.encode e).length ≤ B)
    (hB : ws.length * (B + 5) + 5 ≤ grpcMaxMessage) : (readRespProto.encode (some ws)).length ≤ grpcMaxMessage :=
  answer_room h hB (le_refl _)

end LogCache
