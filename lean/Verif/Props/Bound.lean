import Verif.Proofs.QueryNotRef
import Verif.Proofs.Bound
import Verif.Proofs.KernelRfl
import Verif.Props.QueryTotal
import Verif.Props.QueryShape
/-
C89: a query whose inputs are bound one at a time is the query with, for every variable, the value last bound.
-/
namespace Mentat
open CC

variable {s : Schema} {cs cs' : List BindCall} {text : Text} {b b' : QueryBuilder}

theorem sorted_new (text : Text) : (QueryBuilder.new text).Sorted := ⟨List.Pairwise.nil, List.Pairwise.nil⟩

/-- C89.  The bindings can be made exactly if every name is that of a variable and every keyword looked
up is known. -/
theorem C89_allowed (he : ∀ c ∈ cs, c.Exact) : (∃ b, (QueryBuilder.new text).calls s cs = .ok b) ↔ ∀ c ∈ cs, c.Allowed s :=
  ⟨fun ⟨_, h⟩ => (calls_ok he (sorted_new text) h).1, calls_allowed⟩

/-- C89.  The builder then holds for every variable the value and the type last bound to it, and nothing
else. -/
theorem C89_last (he : ∀ c ∈ cs, c.Exact) (h : (QueryBuilder.new text).calls s cs = .ok b) :
    b.query = text ∧ (∀ x, AMap.get b.values x = lastValue s cs x) ∧ ∀ x, AMap.get b.types x = lastType cs x := by
  obtain ⟨-, -, h1, h2, h3⟩ := calls_ok he (sorted_new text) h
  exact ⟨h1, fun x => by simp [h2, QueryBuilder.new], fun x => by simp [h3, QueryBuilder.new]⟩

/-- C89.  The order of the bindings, and what was bound before to the same variable, do not matter. -/
theorem C89_order (he : ∀ c ∈ cs, c.Exact) (he' : ∀ c ∈ cs', c.Exact) (h : (QueryBuilder.new text).calls s cs = .ok b)
    (h' : (QueryBuilder.new text).calls s cs' = .ok b') (hv : ∀ x, lastValue s cs x = lastValue s cs' x)
    (ht : ∀ x, lastType cs x = lastType cs' x) (fl : Floats) (k : Known) (db : Tables) :
    b.execute fl k db = b'.execute fl k db := by
  obtain ⟨q1, v1, t1⟩ := C89_last he h
  obtain ⟨q2, v2, t2⟩ := C89_last he' h'
  obtain ⟨-, s1, -⟩ := calls_ok he (sorted_new text) h
  obtain ⟨-, s2, -⟩ := calls_ok he' (sorted_new text) h'
  have : b = b' := by
    obtain ⟨q, v, t⟩ := b
    obtain ⟨q', v', t'⟩ := b'
    obtain rfl : v = v' := sorted_ext s1.values s2.values fun x => by rw [v1, v2, hv]
    obtain rfl : t = t' := sorted_ext s1.types s2.types fun x => by rw [t1, t2, ht]
    cases q1; cases q2; rfl
  rw [this]

/-- C89.  If for some variable the type last given is not that of the value last given, the query is
refused, whatever it is. -/
theorem C89_refused (he : ∀ c ∈ cs, c.Exact) (h : (QueryBuilder.new text).calls s cs = .ok b) {x : Var} {v : TypedValue}
    {t : ValueType} (hv : lastValue s cs x = some v) (ht : lastType cs x = some t) (hne : t ≠ v.valueType)
    (fl : Floats) (k : Known) (db : Tables) : (b.execute fl k db).2 = .err .inputError := by
  obtain ⟨-, v1, t1⟩ := C89_last he h
  obtain ⟨-, s1, -⟩ := calls_ok he (sorted_new text) h
  have := (given_ok s1.types s1.values).2 x v t ((v1 x).trans hv) ((t1 x).trans ht) hne
  simp [QueryBuilder.execute, Inputs.new, this, Res.bind]

/-- What the inputs of the query are. -/
theorem inputs_of (he : ∀ c ∈ cs, c.Exact) (h : (QueryBuilder.new text).calls s cs = .ok b)
    (ha : ∀ x v t, lastValue s cs x = some v → lastType cs x = some t → t = v.valueType) :
    ∃ inputs : Inputs, (∀ (fl : Floats) (k : Known) (db : Tables),
        (b.execute fl k db).2 = (QParse.parseFind text).bind fun q => runQuery fl k db q inputs) ∧
      SortedVars inputs.types ∧ SortedVars inputs.values ∧ (∀ x, AMap.get inputs.values x = lastValue s cs x) ∧
      ∀ x, AMap.get inputs.types x = ((lastValue s cs x).map (·.valueType)).or (lastType cs x) := by
  obtain ⟨q1, v1, t1⟩ := C89_last he h
  obtain ⟨-, s1, -⟩ := calls_ok he (sorted_new text) h
  obtain ⟨types', ht⟩ := (given_ok s1.types s1.values).1 fun x v t hx ht => ha x v t ((v1 x).symm.trans hx) ((t1 x).symm.trans ht)
  obtain ⟨h1, h2⟩ := given_types s1.types s1.values ht
  refine ⟨⟨types', b.values⟩, fun fl k db => ?_, h1, s1.values, v1, fun x => ?_⟩
  · simp [QueryBuilder.execute, Inputs.new, ht, Res.bind, q1]
  · rw [h2, v1, t1]

theorem foldl_putVar : ∀ (vs : List (Var × TypedValue)) {m : AMap Var TypedValue}, SortedVars m →
    SortedVars (vs.foldl (fun m p => putVar p.1 p.2 m) m) ∧
    ∀ x, AMap.get (vs.foldl (fun m p => putVar p.1 p.2 m) m) x =
      (vs.reverse.findSome? fun p => if p.1 = x then some p.2 else none).or (AMap.get m x)
  | [], m, hm => ⟨hm, fun x => by simp⟩
  | p :: vs, m, hm => by
    obtain ⟨h1, h2⟩ := foldl_putVar vs (sorted_putVar p.1 p.2 hm)
    refine ⟨h1, fun x => ?_⟩
    rw [List.foldl_cons, h2, get_putVar _ _ _ _ hm, List.reverse_cons, List.findSome?_append, Option.or_assoc]
    congr 1
    simp only [List.findSome?_cons, List.findSome?_nil]
    split <;> simp_all

theorem sorted_map {m : AMap Var TypedValue} (h : SortedVars m) :
    SortedVars (m.map fun p => (p.1, p.2.valueType)) ∧
    ∀ x, AMap.get (m.map fun p => (p.1, p.2.valueType)) x = (AMap.get m x).map (·.valueType) := by
  refine ⟨List.pairwise_map.mpr h, fun x => ?_⟩
  clear h
  induction m with
  | nil => rfl
  | cons p m ih =>
    obtain ⟨y, v⟩ := p
    rw [List.map_cons, AMap.get_cons, AMap.get_cons, ih]
    split <;> simp

/-- C89.  The query is answered as by `q_once` with the same values, in one sequence, when the types that
are given are those of the values (`lastType` then says nothing that the values do not). -/
theorem C89_sequence (he : ∀ c ∈ cs, c.Exact) (h : (QueryBuilder.new text).calls s cs = .ok b)
    (ha : ∀ x t, lastType cs x = some t → (lastValue s cs x).map (·.valueType) = some t)
    {vs : List (Var × TypedValue)}
    (hvs : ∀ x, (vs.reverse.findSome? fun p => if p.1 = x then some p.2 else none) = lastValue s cs x)
    (fl : Floats) (k : Known) (db : Tables) :
    (b.execute fl k db).2 = (QParse.parseFind text).bind fun q => runQuery fl k db q (Inputs.ofSequence vs) := by
  obtain ⟨inputs, h1, h2, h3, h4, h5⟩ := inputs_of he h fun x v t hv ht => by
    have := ha x t ht
    rw [hv] at this
    simpa using this.symm
  obtain ⟨g1, g2⟩ := foldl_putVar vs (m := []) List.Pairwise.nil
  obtain ⟨g3, g4⟩ := sorted_map g1
  rw [h1]
  have : inputs = Inputs.ofSequence vs := by
    obtain ⟨types, values⟩ := inputs
    unfold Inputs.ofSequence Inputs.ofValues
    congr 1
    · refine sorted_ext h2 g3 fun x => ?_
      rw [h5, g4, g2, hvs]
      cases ht : lastType cs x with
      | none => simp
      | some t => rw [ha x t ht]; simp [← ha x t ht]
    · exact sorted_ext h3 g1 fun x => by rw [h4, g2, hvs]; simp
  rw [this]

/-- C89.  After any history, a query of patterns with known attributes whose inputs have all been bound is
answered with one row for each assignment that gives the inputs the values last bound and under which
every pattern is matched by a datom asserted and not retracted since.  An entity bound to a
keyword is none (`bind_ref_from_kw` is there to look them up). -/
theorem C89_answers_partial {db : Db} (hr : ReachData db) (fl : Floats) (ftId : Text → Int)
    {ps : List Pattern} {xs ys : List Var}
    (hq : QParse.parseFind text = .ok { find := .rel (xs.map .var), inVars := ys, clauses := ps.map .pattern })
    (hps : ∀ p ∈ ps, p.Known ∧ p.named = false ∧ ∀ i, p.v ≠ .constant (.bigInteger i))
    (hn : xs.Nodup) (hys : ys.Nodup) (hxs : ∀ x ∈ xs, ∃ p ∈ ps, x ∈ p.vars) (hnew : ∃ x ∈ xs, x ∉ ys)
    (he : ∀ c ∈ cs, c.Exact) (h : (QueryBuilder.new text).calls db.schema cs = .ok b)
    (ha : ∀ x v t, lastValue db.schema cs x = some v → lastType cs x = some t → t = v.valueType)
    (hp : ∀ x v, lastValue db.schema cs x = some v → v.Proper)
    (hall : ∀ y ∈ ys, (lastValue db.schema cs y).isSome) :
    ∃ rows : List (List TypedValue),
      (b.execute fl ⟨db.schema, none⟩ (db.tables ftId)).2 = .ok (.rel xs.length rows.flatten) ∧ rows.Nodup ∧
      ∀ row, row ∈ rows ↔ ∃ ρ : Assign, ρ.Proper ∧ (∀ y ∈ ys, lastValue db.schema cs y = some (ρ y)) ∧
        (∀ p ∈ ps, p.Asserted db.schema db.store.log ρ) ∧ row = xs.map ρ := by
  obtain ⟨inputs, h1, h2, h3, h4, h5⟩ := inputs_of he h ha
  rw [h1, hq]
  simp only [Res.bind]
  have hok : inputs.Ok := ⟨sorted_wf h2, fun x v hv => by rw [h5, ← h4, hv]; rfl, fun x v hv => hp x v (by rw [← h4]; exact hv)⟩
  by_cases hkw : ∃ p ∈ ps, ∃ y ∈ ys, ∃ k, (p.e = .var y ∨ p.tx = .var y) ∧ lastValue db.schema cs y = some (.keyword k)
  · obtain ⟨p, hpp, y, hy, kk, hpe, hvy⟩ := hkw
    obtain ⟨a, ha⟩ := C74_algebrize_partial (k := ⟨db.schema, none⟩)
      (q := { find := .rel (xs.map .var), inVars := ys, clauses := ps.map .pattern })
      (inputs := inputs) rfl hok (xs := xs) rfl rfl (fun p hp => (hps p hp).2) (fun x hx => .inr (hxs x hx)) hys (by simp)
      (fun y hy => by rw [h4]; exact hall y hy) rfl (by simp)
    obtain ⟨hem, hfa⟩ := notRef_empty (p := p) (x := y) hok (xs := xs) rfl rfl (basicAll_patterns ps)
      (List.mem_map_of_mem hpp) (hpe.imp_right .inr) hy (by rw [h4]; exact hvy) (by simp [TypedValue.valueType]) ha
    refine ⟨[], ?_, List.nodup_nil, fun row => ⟨fun hrow => absurd hrow List.not_mem_nil, ?_⟩⟩
    · unfold runQuery
      rw [ha]
      show runAlgebrized fl _ a = _
      unfold runAlgebrized
      rw [if_pos hem, hfa]
      simp [QResult.empty]
    · rintro ⟨ρ, -, hin, has, -⟩
      have hy' := hin y hy
      rw [hvy] at hy'
      obtain ⟨d, -, m⟩ := (asserted_iff hr.kept.reach).1 (has p hpp)
      rcases hpe with hpe | hpe
      · have m' := m.1
        rw [hpe] at m'
        rw [show ρ y = _ from m'] at hy'
        cases hy'
      · have m' := m.2.2.2
        rw [hpe] at m'
        rw [show ρ y = _ from m'] at hy'
        cases hy'
  replace hkw : ∀ p ∈ ps, ∀ y ∈ ys, ∀ k, p.e = .var y ∨ p.tx = .var y → lastValue db.schema cs y ≠ some (.keyword k) :=
    fun p hp y hy k hpe hk => hkw ⟨p, hp, y, hy, k, hpe, hk⟩
  have ht : Treated ⟨db.schema, none⟩ (db.tables ftId) (fun _ => False)
      { find := .rel (xs.map .var), inVars := ys, clauses := ps.map .pattern } inputs xs := by
    refine ⟨⟨rfl, ⟨sorted_wf h2, fun x v hv => ?_, fun x v hv => hp x v (by rw [← h4]; exact hv)⟩, by simp, ?_, looseOnce_false _, by simp⟩,
      dbOk_reach hr ftId, ?_, hnew, ?_⟩
    · rw [h5, ← h4, hv]; rfl
    · refine .simple (simpleAll_patterns fun p hp => patOk_known (hps p hp).1 ⟨?_, ?_, ?_⟩)
      · intro x k hx ho
        simp only [only, h4] at ho
        split at ho
        · rename_i hy
          exact hkw p hp x hy k (.inl hx) ho
        · cases ho
      · intro x k hx
        rcases (hps p hp).1.attr with ⟨i, hi⟩ | ⟨i, hi⟩ <;> rw [hi] at hx <;> cases hx
      · intro x k hx ho
        simp only [only, h4] at ho
        split at ho
        · rename_i hy
          exact hkw p hp x hy k (.inr hx) ho
        · cases ho
    · intro o hl
      exfalso
      clear hps hxs hkw hq
      induction ps with
      | nil => cases hl
      | cons p ps ih => exact ih (by simpa [WhereClause.usesAll, WhereClause.uses] using hl)
    · intro ρ hρ
      exact readable_patterns (fun d hd => (rows_storable hr d hd).2) hxs ρ (satAll_patterns.mp hρ.sat)
  obtain ⟨r, hrun⟩ := C74_patterns_partial (fl := fl) ht rfl rfl (fun p hp => (hps p hp).2) hn (fun x hx => .inr (hxs x hx))
    hys (by simp) (fun y hy => by rw [h4]; exact hall y hy) rfl
  obtain ⟨rows, g1, g2, -, g4, g5⟩ := C45_rows_partial ht rfl rfl hrun
  have hans : ∀ ρ, IsAnswer db.schema (db.tables ftId).facts
      { find := .rel (xs.map .var), inVars := ys, clauses := ps.map .pattern } inputs.values ρ ↔
      ρ.Proper ∧ (∀ y ∈ ys, lastValue db.schema cs y = some (ρ y)) ∧ ∀ p ∈ ps, p.Asserted db.schema db.store.log ρ := by
    intro ρ
    simp only [asserted_iff hr.kept.reach]
    constructor
    · rintro ⟨a1, a2, a3⟩; exact ⟨a1, fun y hy => by rw [← h4]; exact a2 y hy, satAll_patterns.mp a3⟩
    · rintro ⟨a1, a2, a3⟩; exact ⟨a1, fun y hy => by rw [h4]; exact a2 y hy, satAll_patterns.mpr a3⟩
  refine ⟨rows, by rw [hrun, g1], g5 rfl, fun row => ⟨fun hrow => ?_, ?_⟩⟩
  · obtain ⟨ρ, hρ, rfl⟩ := g2 row hrow
    obtain ⟨a1, a2, a3⟩ := (hans ρ).mp hρ
    exact ⟨ρ, a1, a2, a3, rfl⟩
  · rintro ⟨ρ, a1, a2, a3, rfl⟩
    exact g4 (fun _ _ => id) _ ⟨ρ, (hans ρ).mpr ⟨a1, a2, a3⟩, rfl⟩

/-- C89.  Once executed, a builder answers by what is bound from then on alone. -/
theorem C89_again (h : (QueryBuilder.new text).calls s cs = .ok b) (he : ∀ c ∈ cs, c.Exact) (fl : Floats) (k : Known)
    (db : Tables) : ∀ b' ∈ [(b.execute fl k db).1, (b.executeScalar fl k db).1, (b.executeColl fl k db).1,
      (b.executeTuple fl k db).1, (b.executeRel fl k db).1], b'.calls s cs' = (QueryBuilder.new text).calls s cs' := by
  intro b' hb'
  rw [← (C89_last he h).1]
  simp only [List.mem_cons, List.not_mem_nil, or_false] at hb'
  rcases hb' with rfl | rfl | rfl | rfl | rfl <;> rfl

/-- C89.  An answered query can be had as a scalar, a collection, a tuple or a relation exactly if that is
what it finds, and is then what was answered. -/
theorem C89_forms {fl : Floats} {k : Known} {db : Tables} {q : FindQuery} {r : QResult}
    (hq : QParse.parseFind b.query = .ok q) (h : (b.execute fl k db).2 = .ok r) :
    ((∃ o, (b.executeScalar fl k db).2 = .ok o ∧ r = .scalar o) ↔ ∃ e, q.find = .scalar e) ∧
    ((∃ e, (b.executeScalar fl k db).2 = .err e) ↔ ∀ e, q.find ≠ .scalar e) ∧
    ((∃ o, (b.executeColl fl k db).2 = .ok o ∧ r = .coll o) ↔ ∃ e, q.find = .coll e) ∧
    ((∃ e, (b.executeColl fl k db).2 = .err e) ↔ ∀ e, q.find ≠ .coll e) ∧
    ((∃ o, (b.executeTuple fl k db).2 = .ok o ∧ r = .tuple o) ↔ ∃ es, q.find = .tuple es) ∧
    ((∃ e, (b.executeTuple fl k db).2 = .err e) ↔ ∀ es, q.find ≠ .tuple es) ∧
    ((∃ o, (b.executeRel fl k db).2 = .ok o ∧ r = .rel o.width o.values) ↔ ∃ es, q.find = .rel es) ∧
    ((∃ e, (b.executeRel fl k db).2 = .err e) ↔ ∀ es, q.find ≠ .rel es) := by
  have hrun : ∃ inputs, runQuery fl k db q inputs = .ok r := by
    unfold QueryBuilder.execute at h
    obtain ⟨inputs, -, h⟩ := bind_iff.mp h
    rw [hq] at h
    exact ⟨inputs, h⟩
  obtain ⟨inputs, hrun⟩ := hrun
  have hs := C51_shape hrun
  simp only [QueryBuilder.executeScalar, QueryBuilder.executeColl, QueryBuilder.executeTuple, QueryBuilder.executeRel, h, Res.bind, hq]
  cases hf : q.find with
  | scalar e =>
    obtain ⟨o, rfl⟩ := hs.scalar e hf
    simp [QResult.intoScalar, QResult.intoColl, QResult.intoTuple, QResult.intoRel, CC.intoTuple, Res.bind]
  | coll e =>
    obtain ⟨o, rfl, -⟩ := hs.coll e hf
    simp [QResult.intoScalar, QResult.intoColl, QResult.intoTuple, QResult.intoRel, CC.intoTuple, Res.bind]
  | tuple es =>
    obtain ⟨-, o, rfl, ho, -⟩ := C51_tuple hf hrun es.length
    rw [hf] at ho
    simp [QResult.intoScalar, QResult.intoColl, QResult.intoRel, ho]
  | rel es =>
    obtain ⟨rows, rfl, -⟩ := hs.rel es hf
    simp [QResult.intoScalar, QResult.intoColl, QResult.intoTuple, QResult.intoRel, CC.intoTuple, Res.bind]

/-! ### Examples -/

namespace QueryEx

def boundText : Text := "[:find ?x :in ?v :where [?x :f/long ?v]]".toList
def boundCalls : List BindCall := [.long "?v".toList 5, .type "?v".toList .long, .long "?v".toList 1]

/-- The value bound first is not used. -/
theorem C89_example : ∃ b, (QueryBuilder.new boundText).calls schema boundCalls = .ok b ∧
    (b.execute floats ⟨schema, none⟩ store).2 = .ok (.rel 1 [.ref 20, .ref 22]) := ⟨_, rfl, by kernel_rfl⟩

/-- Executed again, the same builder does not answer the query. -/
theorem C89_fails_again : ∃ b, (QueryBuilder.new boundText).calls schema boundCalls = .ok b ∧
    ((b.execute floats ⟨schema, none⟩ store).1.execute floats ⟨schema, none⟩ store).2 = .err .unboundVariables :=
  ⟨_, rfl, by kernel_rfl⟩

/-- A microsecond before 1970 is bound as a microsecond after. -/
theorem C89_fails_instant (text : Text) : (QueryBuilder.new text).calls schema [.instant "?t".toList (-1)] =
    (QueryBuilder.new text).calls schema [.instant "?t".toList 1] := rfl

/-- A name that is not that of a variable is a panic. -/
theorem C89_fails_name (text : Text) : (QueryBuilder.new text).calls schema [.long "v".toList 1] = .panic := rfl

end QueryEx

/-- The hypotheses of `C89_answers_partial` hold of `[:find ?e :in ?v :where [?e :x/one ?v]]` after a
history. -/
theorem C89_answers_example : ∃ db b, ReachData db ∧ (QueryBuilder.new "[:find ?e :in ?v :where [?e :x/one ?v]]".toList).calls db.schema
      [.value "?v".toList (str "a"), .type "?v".toList .string, .value "?v".toList (str "b")] = .ok b ∧
    ∃ rows : List (List TypedValue),
      (b.execute QueryEx.floats ⟨db.schema, none⟩ (db.tables fun _ => 1)).2 = .ok (.rel 1 rows.flatten) := by
  obtain ⟨db, hr, -⟩ := C73_example
  have hc : (QueryBuilder.new "[:find ?e :in ?v :where [?e :x/one ?v]]".toList).calls db.schema
      [.value "?v".toList (str "a"), .type "?v".toList .string, .value "?v".toList (str "b")] =
      .ok ⟨"[:find ?e :in ?v :where [?e :x/one ?v]]".toList, [("?v".toList, str "b")], [("?v".toList, .string)]⟩ := rfl
  have hl : ∀ x, lastValue db.schema [.value "?v".toList (str "a"), .type "?v".toList .string, .value "?v".toList (str "b")] x =
      if "?v".toList = x then some (str "b") else none := by
    intro x
    simp only [lastValue, List.reverse_cons, List.reverse_nil, List.nil_append, List.cons_append, List.findSome?_cons, BindCall.valueOf]
    split <;> simp_all
  obtain ⟨rows, h, -⟩ := C89_answers_partial hr QueryEx.floats (fun _ => 1)
    (text := "[:find ?e :in ?v :where [?e :x/one ?v]]".toList)
    (ps := [{ e := .var "?e".toList, a := .ident (kw "x" "one"), v := .var "?v".toList, tx := .placeholder }])
    (xs := ["?e".toList]) (ys := ["?v".toList]) (by kernel_rfl) (by
      intro p hp
      rw [List.mem_singleton] at hp
      subst hp
      exact ⟨⟨.inr ⟨_, rfl⟩, by simp, by simp⟩, rfl, by simp⟩) (by simp) (by simp) (by
      intro x hx
      rw [List.mem_singleton] at hx
      subst hx
      exact ⟨_, List.mem_singleton.mpr rfl, by simp [Pattern.vars, NonValue.vars]⟩)
    ⟨_, List.mem_singleton.mpr rfl, by decide⟩ (by
      intro c hc
      simp only [List.mem_cons, List.not_mem_nil, or_false] at hc
      rcases hc with rfl | rfl | rfl <;> exact trivial) hc (by
      intro x v t hv ht
      rw [hl] at hv
      split at hv
      · rename_i hx; subst hx
        cases hv; cases ht; rfl
      · cases hv) (by
      intro x v hv
      rw [hl] at hv
      split at hv
      · cases hv; trivial
      · cases hv) (by
      intro y hy
      rw [List.mem_singleton] at hy
      subst hy
      rw [hl]; rfl)
  exact ⟨db, _, hr, hc, rows, h⟩

end Mentat
