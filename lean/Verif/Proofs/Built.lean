import Verif.Spec.Built
import Verif.Model.Builder
import Verif.Proofs.Entities
/- Transacting typed values and transacting their EDN. -/
namespace Mentat
open TransactableValue

theorem nname_keyword (k : Keyword) : k.nname.keyword = k := by
  obtain ⟨ns, n⟩ := k
  unfold Keyword.nname NName.keyword
  split
  · rename_i h
    simp only at h
    subst h
    simp [NName.parts]
  · rename_i h
    have : 0 < ns.length := List.length_pos_iff.mpr h
    simp [NName.parts, this]

theorem nname_namespaced {k : Keyword} (h : k.ns ≠ []) : k.nname.isNamespaced = true := by
  have : 0 < k.ns.length := List.length_pos_iff.mpr h
  unfold Keyword.nname
  rw [if_neg h]
  simpa [NName.isNamespaced] using this

theorem fromEdn_edn (v : TypedValue) : TypedValue.fromEdn v.edn = some (match v with | .ref e => .long e | v => v) := by
  cases v with
  | instant us =>
    simp only [TypedValue.edn, TypedValue.fromEdn, DateTime.toMicros, Option.some.injEq, TypedValue.instant.injEq]
    omega
  | keyword k => simp [TypedValue.edn, TypedValue.fromEdn, nname_keyword]
  | _ => rfl

/-- A value of the right type is read as itself. -/
theorem toTyped_edn (s : Schema) (v : TypedValue) : s.toTypedValue v.edn v.valueType = .ok v := by
  unfold Schema.toTypedValue
  rw [fromEdn_edn]
  cases v <;> rfl

theorem asTempid_edn (v : TypedValue) : (asTempid v.edn : Option TempId) = asTempid v := by
  cases v <;> rfl

theorem asTempid_id (e : EntidOrIdent) : (asTempid e.edn : Option TempId) = none := by
  cases e <;> rfl

theorem toTyped_id (env : TxEnv) (e : EntidOrIdent) :
    env.schema.toTypedValue e.edn .ref = (env.attribute e).bind fun n => .ok (.ref n) := by
  cases e with
  | entid n => rfl
  | ident k =>
    simp only [EntidOrIdent.edn, Schema.toTypedValue, TypedValue.fromEdn, nname_keyword, TxEnv.attribute]

theorem writtenMap_eq (m : MapNotation TypedValue) :
    ValuePlace.writtenMap m = m.map fun p => (p.1, p.2.written) := by
  induction m with
  | nil => rfl
  | cons p r ih => obtain ⟨a, v⟩ := p; simp [ValuePlace.writtenMap, ValuePlace.writtenPair, ih]

theorem writtenList_eq (vs : List (ValuePlace TypedValue)) : ValuePlace.writtenList vs = vs.map (·.written) := by
  induction vs with
  | nil => rfl
  | cons p r ih => simp [ValuePlace.writtenList, ih]

theorem typeAt_eq {env : TxEnv} {a : EntidOrIdent} {n at_} (h : env.attribute a = .ok n) (h' : env.schema.requireAttr n = .ok at_) :
    env.schema.typeAt a = some at_.valueType := by
  have h2 : env.schema.attr n = some at_ := by
    unfold Schema.requireAttr at h'
    split at h'
    · cases h'; assumption
    · cases h'
  cases a with
  | entid m => cases h; simp [Schema.typeAt, h2]
  | ident k =>
    unfold TxEnv.attribute Schema.requireEntid at h
    simp only at h
    split at h
    · rename_i e he
      cases h
      simp [Schema.typeAt, he, h2]
    · cases h

theorem lookupRef_written {env : TxEnv} {a : EntidOrIdent} {v : TypedValue} (h : RefFits env.schema a v) (s : Stage1) :
    env.lookupRef s a v.edn = env.lookupRef s a v := by
  unfold TxEnv.lookupRef
  cases ha : env.attribute a with
  | err e => rfl
  | panic => rfl
  | ok n =>
    simp only [Res.bind]
    cases hat : env.schema.requireAttr n with
    | err e => rfl
    | panic => rfl
    | ok at_ =>
      have ht := h _ (typeAt_eq ha hat)
      have h1 : (intoTypedValue env.schema v.edn at_.valueType : Res TypedValue) = .ok v := by
        rw [← ht]; exact toTyped_edn _ _
      have h2 : (intoTypedValue env.schema v at_.valueType : Res TypedValue) = .ok v := by
        rw [← ht]; simp [intoTypedValue]
      simp only [h1, h2]

theorem termE_written {env : TxEnv} {e : EntityPlace TypedValue} (h : EntFits env.schema e) (s : Stage1) :
    env.termE s e.written = env.termE s e := by
  cases e with
  | entid x => cases x <;> rfl
  | tempId t => rfl
  | lookupRef a v => simp only [EntityPlace.written, TxEnv.termE, lookupRef_written h]
  | txFunction f => rfl

theorem termVOfE_written {env : TxEnv} {e : EntityPlace TypedValue} (h : EntFits env.schema e) (s : Stage1) :
    env.termVOfE s e.written = env.termVOfE s e := by
  simp only [TxEnv.termVOfE, termE_written h]

theorem finish_written {env : TxEnv} {e : EntityPlace TypedValue} (h : EntFits env.schema e) (s : Stage1) (op : Op) (a : Entid)
    (v : Sum TypedValue LookupRefOrTempId) : env.finish s op e.written a v = env.finish s op e a v := by
  simp only [TxEnv.finish, termE_written h]

theorem termEOfV_written {env : TxEnv} {v : ValuePlace TypedValue} {fa : EntidOrIdent}
    (h : ∀ t, env.schema.typeAt fa = some t → PlaceFits env.schema t v) (s : Stage1) :
    env.termEOfV s v.written fa = env.termEOfV s v fa := by
  unfold TxEnv.termEOfV
  cases ha : env.attribute fa with
  | err e => rfl
  | panic => rfl
  | ok n =>
    simp only [Res.bind]
    cases hat : env.schema.requireAttr n with
    | err e => rfl
    | panic => rfl
    | ok at_ =>
      simp only
      have ht := h _ (typeAt_eq ha hat)
      by_cases hr : at_.valueType = .ref
      · simp only [hr, ne_eq, not_true_eq_false, if_false]
        rw [hr] at ht
        cases v with
        | atom v =>
          simp only [ValuePlace.written, asTempid_edn]
          cases ht with
          | atom hq =>
            have h1 : (intoTypedValue env.schema v.edn .ref : Res TypedValue) = .ok v := by
              rw [← hq]; exact toTyped_edn _ _
            have h2 : (intoTypedValue env.schema v .ref : Res TypedValue) = .ok v := by
              rw [← hq]; simp [intoTypedValue]
            rw [h1, h2]
          | name => rfl
        | entid e =>
          simp only [ValuePlace.written, asTempid_id]
          have : (intoTypedValue env.schema e.edn .ref : Res TypedValue) = (env.attribute e).bind fun n => .ok (.ref n) := toTyped_id env e
          rw [this]
          cases env.attribute e <;> rfl
        | tempId t => cases t <;> rfl
        | lookupRef a w =>
          simp only [ValuePlace.written]
          rw [lookupRef_written (by cases ht; assumption)]
        | txFunction f => rfl
        | vector vs => rfl
        | map m => rfl
      · simp [hr]

theorem reversedTerm_written {env : TxEnv} {e : EntityPlace TypedValue} {v : ValuePlace TypedValue} {fa : EntidOrIdent}
    (he : EntFits env.schema e) (h : ∀ t, env.schema.typeAt fa = some t → PlaceFits env.schema t v) (s : Stage1) :
    env.reversedTerm s e.written fa v.written = env.reversedTerm s e fa v := by
  unfold TxEnv.reversedTerm
  rw [termEOfV_written h]
  simp only [termVOfE_written he]

theorem get_written (m : MapNotation TypedValue) (k : EntidOrIdent) :
    MapNotation.get (ValuePlace.writtenMap m) k = (m.get k).map (·.written) := by
  rw [writtenMap_eq]
  induction m with
  | nil => rfl
  | cons p r ih =>
    obtain ⟨a, v⟩ := p
    simp only [List.map_cons, MapNotation.get]
    split
    · rfl
    · exact ih

theorem get_mem {V : Type} {m : MapNotation V} {k : EntidOrIdent} {v} (h : m.get k = some v) : (k, v) ∈ m := by
  induction m with
  | nil => cases h
  | cons p r ih =>
    obtain ⟨a, w⟩ := p
    simp only [MapNotation.get] at h
    split at h
    · rename_i hk; cases h; subst hk; exact List.mem_cons_self
    · exact List.mem_cons_of_mem _ (ih h)

theorem remove_written (m : MapNotation TypedValue) (k : EntidOrIdent) :
    MapNotation.remove (ValuePlace.writtenMap m) k = ValuePlace.writtenMap (m.remove k) := by
  simp only [writtenMap_eq, MapNotation.remove, List.filter_map, Function.comp_def]

theorem dbId_written {s : Schema} {v : ValuePlace TypedValue} (h : IdFits s v) :
    v.written.dbId = v.dbId.bind fun e => .ok e.written := by
  cases v with
  | entid e =>
    cases e with
    | entid n => rfl
    | ident k =>
      simp only [ValuePlace.written, EntidOrIdent.edn, ValuePlace.dbId, intoEntityPlace, Edn.intoEntityPlace,
        nname_namespaced h, if_true, nname_keyword]
      rfl
  | tempId t => cases t <;> rfl
  | lookupRef a v => rfl
  | txFunction f => rfl
  | vector vs => rfl
  | map m => rfl
  | atom v =>
    cases v with
    | keyword k =>
      simp only [ValuePlace.written, TypedValue.edn, ValuePlace.dbId, intoEntityPlace, Edn.intoEntityPlace,
        nname_namespaced h, if_true, nname_keyword]
      rfl
    | long n => exact h.elim
    | _ => rfl

theorem dbId_fits {s : Schema} {v : ValuePlace TypedValue} {e} (h : IdFits s v) (he : v.dbId = .ok e) : EntFits s e := by
  cases v with
  | entid x => cases he; trivial
  | tempId t => cases he; trivial
  | lookupRef a v => cases he; exact h
  | txFunction f => cases he; trivial
  | vector vs => cases he
  | map m => cases he
  | atom v => cases v <;> cases he <;> trivial

theorem removeDbId_written {s : Schema} {m : MapNotation TypedValue} (h : ∀ v, (dbIdKey, v) ∈ m → IdFits s v) :
    removeDbId (ValuePlace.writtenMap m) =
      (removeDbId m).bind fun p => .ok (p.1.map (·.written), ValuePlace.writtenMap p.2) := by
  unfold removeDbId
  rw [get_written, remove_written]
  cases hg : m.get dbIdKey with
  | none => rfl
  | some v =>
    simp only [Option.map_some]
    rw [dbId_written (h v (get_mem hg))]
    cases v.dbId <;> rfl

theorem removeDbId_fits {s : Schema} {m : MapNotation TypedValue} (h : ∀ v, (dbIdKey, v) ∈ m → IdFits s v) {id m'}
    (hr : removeDbId m = .ok (id, m')) : (∀ e, id = some e → EntFits s e) ∧ m' = m.remove dbIdKey := by
  unfold removeDbId at hr
  split at hr
  · cases hr
    refine ⟨?_, rfl⟩
    intro e he
    cases he
  · rename_i v hg
    obtain ⟨e, he, hr⟩ := Res.bind_ok_iff.1 hr
    cases hr
    refine ⟨?_, rfl⟩
    intro e' he'
    cases he'
    exact dbId_fits (h v (get_mem hg)) he

theorem placeOr_written (s : Stage1) (id : Option (EntityPlace TypedValue)) :
    s.placeOr (id.map (·.written)) = ((s.placeOr id).1.written, (s.placeOr id).2) := by
  cases id <;> rfl

theorem placeOr_fits {sc : Schema} (s : Stage1) {id : Option (EntityPlace TypedValue)} (h : ∀ e, id = some e → EntFits sc e) :
    EntFits sc (s.placeOr id).1 := by
  cases id with
  | none => trivial
  | some e => exact h e rfl

theorem ahead_some {a fa : EntidOrIdent} (h : a.unreversed = .ok (some fa)) : a.ahead = fa := by
  cases a with
  | entid n => simp [EntidOrIdent.unreversed] at h
  | ident k =>
    obtain ⟨ns, name⟩ := k
    cases name with
    | nil => simp [EntidOrIdent.unreversed, Keyword.unreversed] at h
    | cons c r =>
      by_cases hc : c = '_'
      · subst hc
        cases r with
        | nil => simp [EntidOrIdent.unreversed, Keyword.unreversed] at h
        | cons d r => simp [EntidOrIdent.unreversed, Keyword.unreversed] at h; exact h
      · simp [EntidOrIdent.unreversed, Keyword.unreversed, hc] at h

theorem ahead_none {a : EntidOrIdent} (h : a.unreversed = .ok none) : a.ahead = a := by
  cases a with
  | entid n => rfl
  | ident k =>
    obtain ⟨ns, name⟩ := k
    cases name with
    | nil => rfl
    | cons c r =>
      by_cases hc : c = '_'
      · subst hc
        cases r with
        | nil => rfl
        | cons d r => simp [EntidOrIdent.unreversed, Keyword.unreversed] at h
      · unfold EntidOrIdent.ahead
        split
        · rename_i heq; simp only [EntidOrIdent.ident.injEq, Keyword.mk.injEq, List.cons.injEq] at heq; exact absurd heq.2.1 hc
        · rfl

/-- An entry of a map under a number instead of its name. -/
theorem entry_fits {env : TxEnv} {op : Op} {e : EntityPlace TypedValue} {a : EntidOrIdent} {v : ValuePlace TypedValue} {n at_}
    (he : EntFits env.schema e) (ha : env.attribute a = .ok n) (hat : env.schema.requireAttr n = .ok at_)
    (h : ∀ t, env.schema.typeAt a = some t → PlaceFits env.schema t v) :
    EntityFits env.schema (.addOrRetract op e (.entid n) v) := by
  refine ⟨he, fun t ht => h t ?_⟩
  rw [typeAt_eq ha hat]
  have : env.schema.typeAt (.entid n) = some at_.valueType := typeAt_eq (env := env) (a := .entid n) rfl hat
  rw [← this]; exact ht

theorem nested_written {env : TxEnv} {e : EntityPlace TypedValue} (he : EntFits env.schema e) :
    ∀ (m : MapNotation TypedValue) (s : Stage1) (front : List (TxEntity TypedValue)) (d : Bool),
      (∀ p ∈ m, ∀ t, env.schema.typeAt p.1.ahead = some t → PlaceFits env.schema t p.2) →
      (∀ x ∈ front, EntityFits env.schema x) →
      env.nested e.written (ValuePlace.writtenMap m) s (front.map (·.written)) d =
        ((env.nested e m s front d).bind fun r => .ok (r.1, r.2.1.map (·.written), r.2.2)) ∧
      ∀ r, env.nested e m s front d = .ok r → ∀ x ∈ r.2.1, EntityFits env.schema x
  | [], s, front, d, _, hf => by
    refine ⟨rfl, ?_⟩
    rintro r h; cases h; exact hf
  | (ia, iv) :: m, s, front, d, hm, hf => by
    have hm' : ∀ p ∈ m, ∀ t, env.schema.typeAt p.1.ahead = some t → PlaceFits env.schema t p.2 :=
      fun p hp => hm p (List.mem_cons_of_mem _ hp)
    have h1 := hm (ia, iv) List.mem_cons_self
    simp only [ValuePlace.writtenMap, ValuePlace.writtenPair, TxEnv.nested]
    cases hu : ia.unreversed with
    | err x => simp [Res.bind]
    | panic => simp [Res.bind]
    | ok u =>
      cases u with
      | some fa =>
        simp only [Res.bind]
        rw [ahead_some hu] at h1
        rw [reversedTerm_written he h1]
        cases hr : env.reversedTerm s e fa iv with
        | err x => simp
        | panic => simp
        | ok s' => exact nested_written he m s' front false hm' hf
      | none =>
        simp only [Res.bind]
        rw [ahead_none hu] at h1
        cases ha : env.attribute ia with
        | err x => simp
        | panic => simp
        | ok n =>
          simp only
          cases hat : env.schema.requireAttr n with
          | err x => simp
          | panic => simp
          | ok at_ =>
            refine nested_written he m s (.addOrRetract .add e (.entid n) iv :: front) _ hm' ?_
            intro x hx
            rcases List.mem_cons.1 hx with rfl | hx
            · exact entry_fits he ha hat h1
            · exact hf x hx

theorem fold_written (m : MapNotation TypedValue) (e : EntityPlace TypedValue) (front : List (TxEntity TypedValue)) :
    (ValuePlace.writtenMap m).foldl (fun f x => TxEntity.addOrRetract .add e.written x.1 x.2 :: f) (front.map (·.written)) =
      (m.foldl (fun f x => TxEntity.addOrRetract .add e x.1 x.2 :: f) front).map (·.written) := by
  rw [writtenMap_eq]
  induction m generalizing front with
  | nil => rfl
  | cons p r ih => exact ih (.addOrRetract .add e p.1 p.2 :: front)

theorem foldl_mem {α β : Type} {f : α → β} {m : List α} {front : List β} {y : β}
    (h : y ∈ m.foldl (fun l x => f x :: l) front) : y ∈ front ∨ ∃ x ∈ m, y = f x := by
  induction m generalizing front with
  | nil => exact .inl h
  | cons p r ih =>
    rcases ih h with h | ⟨x, hx, rfl⟩
    · rcases List.mem_cons.1 h with rfl | h
      · exact .inr ⟨p, List.mem_cons_self, rfl⟩
      · exact .inl h
    · exact .inr ⟨x, List.mem_cons_of_mem _ hx, rfl⟩

theorem vec_written (vs : List (ValuePlace TypedValue)) (op : Op) (e : EntityPlace TypedValue) (a : Entid) (front : List (TxEntity TypedValue)) :
    (ValuePlace.writtenList vs).foldl (fun f x => TxEntity.addOrRetract op e.written (.entid a) x :: f) (front.map (·.written)) =
      (vs.foldl (fun f x => TxEntity.addOrRetract op e (.entid a) x :: f) front).map (·.written) := by
  rw [writtenList_eq]
  induction vs generalizing front with
  | nil => rfl
  | cons p r ih => exact ih (.addOrRetract op e (.entid a) p :: front)

theorem done_written {r : Res Stage1} :
    (r.bind fun s' => .ok (s', ([] : List (TxEntity Edn)))) =
      ((r.bind fun s' => .ok (s', ([] : List (TxEntity TypedValue)))).bind fun p => .ok (p.1, p.2.map (·.written))) := by
  cases r <;> rfl

theorem step_written {env : TxEnv} {x : TxEntity TypedValue} (h : EntityFits env.schema x) (s : Stage1) :
    env.step s x.written = ((env.step s x).bind fun p => .ok (p.1, p.2.map (·.written))) ∧
    ∀ p, env.step s x = .ok p → ∀ y ∈ p.2, EntityFits env.schema y := by
  cases x with
  | map m =>
    obtain ⟨h1, h2⟩ := h
    constructor
    · simp only [TxEntity.written, TxEnv.step]
      rw [removeDbId_written h1]
      cases hr : removeDbId m with
      | err e => rfl
      | panic => rfl
      | ok r =>
        obtain ⟨id, m'⟩ := r
        simp only [Res.bind]
        rw [placeOr_written]
        exact congrArg (fun l => Res.ok ((s.placeOr id).2, l)) (fold_written m' (s.placeOr id).1 [])
    · intro p hp y hy
      simp only [TxEnv.step] at hp
      obtain ⟨⟨id, m'⟩, hr, hp⟩ := Res.bind_ok_iff.1 hp
      cases hp
      obtain ⟨hid, rfl⟩ := removeDbId_fits h1 hr
      rcases foldl_mem hy with hy | ⟨x, hx, rfl⟩
      · cases hy
      · obtain ⟨hx, hk⟩ := List.mem_filter.1 hx
        exact ⟨placeOr_fits s hid, h2 x hx (by simpa using hk)⟩
  | addOrRetract op e a v =>
    obtain ⟨he, hv⟩ := h
    simp only [TxEntity.written, TxEnv.step]
    cases hu : a.unreversed with
    | err x => simp [Res.bind]
    | panic => simp [Res.bind]
    | ok u =>
      cases u with
      | some fa =>
        rw [ahead_some hu] at hv
        simp only [Res.bind]
        rw [reversedTerm_written he hv]
        constructor
        · exact done_written
        · intro p hp y hy
          obtain ⟨s', -, hp⟩ := Res.bind_ok_iff.1 hp
          cases hp; cases hy
      | none =>
        rw [ahead_none hu] at hv
        simp only [Res.bind]
        cases ha : env.attribute a with
        | err x => simp
        | panic => simp
        | ok n =>
          simp only
          cases hat : env.schema.requireAttr n with
          | err x => simp
          | panic => simp
          | ok at_ =>
            simp only
            have ht := hv _ (typeAt_eq ha hat)
            have fin : ∀ (st : Stage1) (w : Sum TypedValue LookupRefOrTempId),
                ((env.finish st op e.written n w).bind fun s' => Res.ok (s', ([] : List (TxEntity Edn)))) =
                  ((env.finish st op e n w).bind fun s' => Res.ok (s', ([] : List (TxEntity TypedValue)))).bind
                    fun p => .ok (p.1, p.2.map (·.written)) := by
              intro st w
              rw [finish_written he]
              exact done_written
            have none_ : ∀ (st : Stage1) (w : Sum TypedValue LookupRefOrTempId) (p : Stage1 × List (TxEntity TypedValue)),
                ((env.finish st op e n w).bind fun s' => Res.ok (s', ([] : List (TxEntity TypedValue)))) = .ok p →
                ∀ y ∈ p.2, EntityFits env.schema y := by
              intro st w p hp y hy
              obtain ⟨s', -, hp⟩ := Res.bind_ok_iff.1 hp
              cases hp; cases hy
            cases v with
            | atom v =>
              simp only [ValuePlace.written, asTempid_edn]
              by_cases hr : at_.valueType = .ref
              · simp only [hr, if_true]
                rw [hr] at ht
                cases hid : (asTempid v : Option TempId) with
                | some i => exact ⟨fin _ _, none_ _ _⟩
                | none =>
                  have hq : v.valueType = .ref := by
                    cases ht with
                    | atom hq => exact hq
                    | name => cases hid
                  have h1 : (intoTypedValue env.schema v.edn .ref : Res TypedValue) = .ok v := by
                    rw [← hq]; exact toTyped_edn _ _
                  have h2 : (intoTypedValue env.schema v .ref : Res TypedValue) = .ok v := by
                    rw [← hq]; simp [intoTypedValue]
                  simp only [h1, h2]
                  exact ⟨fin _ _, none_ _ _⟩
              · simp only [hr, if_false]
                have hq : v.valueType = at_.valueType := by
                  generalize at_.valueType = q at ht hr
                  cases ht with
                  | atom hq => exact hq
                  | name => exact absurd rfl hr
                have h1 : (intoTypedValue env.schema v.edn at_.valueType : Res TypedValue) = .ok v := by
                  rw [← hq]; exact toTyped_edn _ _
                have h2 : (intoTypedValue env.schema v at_.valueType : Res TypedValue) = .ok v := by
                  rw [← hq]; simp [intoTypedValue]
                simp only [h1, h2]
                exact ⟨fin _ _, none_ _ _⟩
            | entid x =>
              have hr : at_.valueType = .ref := by
                generalize at_.valueType = q at ht
                cases ht; rfl
              have h1 : (intoTypedValue env.schema x.edn .ref : Res TypedValue) = (env.attribute x).bind fun n => .ok (.ref n) := toTyped_id env x
              simp only [ValuePlace.written, asTempid_id, hr, if_true, h1]
              cases env.attribute x with
              | err y => simp [Res.bind]
              | panic => simp [Res.bind]
              | ok m => exact ⟨fin _ _, none_ _ _⟩
            | tempId i =>
              have hr : at_.valueType = .ref := by
                generalize at_.valueType = q at ht
                cases ht; rfl
              cases i with
              | external i =>
                have h1 : (asTempid (Edn.text i) : Option TempId) = some (.external i) := rfl
                simp only [ValuePlace.written, hr, if_true, h1]
                exact ⟨fin _ _, none_ _ _⟩
              | internal i => exact ⟨fin _ _, none_ _ _⟩
            | lookupRef la lv =>
              have hl : RefFits env.schema la lv := by
                generalize at_.valueType = q at ht
                cases ht; assumption
              simp only [ValuePlace.written]
              by_cases hr : at_.valueType = .ref
              · simp only [hr, ne_eq, not_true_eq_false, if_false]
                rw [lookupRef_written hl]
                cases env.lookupRef s la lv with
                | err y => simp
                | panic => simp
                | ok m => exact ⟨fin _ _, none_ _ _⟩
              · simp [hr]
            | txFunction f =>
              simp only [ValuePlace.written]
              cases env.txFunction f with
              | err y => simp
              | panic => simp
              | ok m =>
                simp only
                by_cases hr : at_.valueType = .ref
                · simp only [hr, ne_eq, not_true_eq_false, if_false]
                  exact ⟨fin _ _, none_ _ _⟩
                · simp [hr]
            | vector vs =>
              have hvs : ∀ v ∈ vs, PlaceFits env.schema at_.valueType v := by
                generalize at_.valueType = q at ht ⊢
                cases ht; assumption
              simp only [ValuePlace.written]
              by_cases hm : at_.multival = false
              · simp [hm]
              · simp only [hm]
                constructor
                · exact congrArg (fun l => Res.ok (s, l)) (vec_written vs op e n [])
                · intro p hp y hy
                  cases hp
                  rcases foldl_mem hy with hy | ⟨x, hx, rfl⟩
                  · cases hy
                  · refine entry_fits he ha hat fun t ht => ?_
                    rw [typeAt_eq ha hat] at ht
                    cases ht
                    exact hvs x hx
            | map m =>
              have hm : (∀ v, (dbIdKey, v) ∈ m → IdFits env.schema v) ∧
                  ∀ p ∈ m, p.1 ≠ dbIdKey → ∀ t', env.schema.typeAt p.1.ahead = some t' → PlaceFits env.schema t' p.2 := by
                generalize at_.valueType = q at ht
                cases ht with
                | map h1 h2 => exact ⟨h1, h2⟩
              simp only [ValuePlace.written]
              by_cases ho : op = .add
              · by_cases hr : at_.valueType = .ref
                · simp only [ho, hr, ne_eq, not_true_eq_false, if_false]
                  rw [removeDbId_written hm.1]
                  cases hd : removeDbId m with
                  | err y => simp [Res.bind]
                  | panic => simp [Res.bind]
                  | ok r =>
                    obtain ⟨id, m'⟩ := r
                    obtain ⟨hid, rfl⟩ := removeDbId_fits hm.1 hd
                    simp only [Res.bind]
                    rw [placeOr_written, Option.isNone_map]
                    have hpf := placeOr_fits (sc := env.schema) s hid
                    have hn := nested_written hpf (MapNotation.remove m dbIdKey) (s.placeOr id).2 [] (id.isNone && !at_.component) (by
                        intro p hp
                        obtain ⟨hp, hk⟩ := List.mem_filter.1 hp
                        exact hm.2 p hp (by simpa using hk)) (by intro x hx; cases hx)
                    simp only [List.map_nil] at hn
                    rw [hn.1]
                    cases hnn : env.nested (s.placeOr id).1 (MapNotation.remove m dbIdKey) (s.placeOr id).2 [] (id.isNone && !at_.component) with
                    | err y => simp [Res.bind]
                    | panic => simp [Res.bind]
                    | ok r =>
                      obtain ⟨s1, front, dg⟩ := r
                      simp only [Res.bind]
                      cases dg with
                      | true => simp
                      | false =>
                        simp only [Bool.false_eq_true, if_false]
                        rw [termVOfE_written hpf]
                        cases env.termVOfE s1 (s.placeOr id).1 with
                        | err y => simp
                        | panic => simp
                        | ok r =>
                          simp only
                          rw [finish_written he]
                          cases env.finish r.2 .add e n r.1 with
                          | err y => simp
                          | panic => simp
                          | ok s' =>
                            refine ⟨rfl, ?_⟩
                            intro p hp
                            cases hp
                            exact hn.2 _ hnn
                · simp [ho, hr]
              · simp [ho]

theorem run_written {env : TxEnv} (n : Nat) : ∀ (es : List (TxEntity TypedValue)) (s : Stage1), sizeAll es ≤ n →
    (∀ x ∈ es, EntityFits env.schema x) → env.run (es.map (·.written)) s = env.run es s := by
  induction n with
  | zero =>
    intro es s hn _
    cases es with
    | nil => rfl
    | cons x r =>
      have : 0 < x.size := by cases x <;> simp [TxEntity.size, size_pos]
      rw [sizeAll_cons] at hn; omega
  | succ n ih =>
    intro es s hn h
    cases es with
    | nil => rfl
    | cons x r =>
      have hx := step_written (h x List.mem_cons_self) s
      rw [List.map_cons, run_cons, run_cons, hx.1]
      cases hs : env.step s x with
      | err e => rfl
      | panic => rfl
      | ok p =>
        obtain ⟨s', front⟩ := p
        have hsz := step_size hs
        simp only [Res.bind]
        rw [← List.map_append]
        refine ih _ _ ?_ ?_
        · rw [sizeAll_cons] at hn; rw [sizeAll_append]; omega
        · intro y hy
          rcases List.mem_append.1 hy with hy | hy
          · exact hx.2 _ hs y hy
          · exact h y (List.mem_cons_of_mem _ hy)

theorem stage1_written {env : TxEnv} {es : List (TxEntity TypedValue)} (h : ∀ x ∈ es, EntityFits env.schema x) :
    env.stage1 (es.map (·.written)) = env.stage1 es := run_written _ es {} (Nat.le_refl _) h

end Mentat
