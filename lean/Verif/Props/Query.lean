import Verif.Proofs.QueryLocal
/-
C45: queries return the answers.
-/
namespace Mentat
open CC

/-- A row of values is an answer: the values an answering assignment gives to the variables. -/
def Answers (s : Schema) (facts : Facts) (q : FindQuery) (values : AMap Var TypedValue) (xs : List Var)
    (row : List TypedValue) : Prop :=
  ∃ ρ : Assign, IsAnswer s facts q values ρ ∧ row = xs.map ρ

section
variable {fl : Floats} {k : Known} {L : Var → Prop} {db : Tables} {q : FindQuery} {inputs : Inputs} {xs : List Var}
  {r : QResult}

/-- What is assumed of a query, whatever is queried: there is no cache; the limit is not an input; the
clauses are of the kinds treated; variables whose type is not known are met once and not given. -/
structure Shaped (k : Known) (L : Var → Prop) (q : FindQuery) (inputs : Inputs) : Prop where
  cache : k.cache = none
  ins : inputs.Ok
  limit : ∀ x, q.limit ≠ .var x
  clauses : ClausesOk k.schema L (only q.inVars (AMap.get inputs.values)) q
  once : LooseOnce L q.clauses
  given : ∀ x ∈ q.inVars, ¬ L x

/-- What is assumed of a query and what is queried: it finds variables, not all of them given; the
answers are values that can be read back. -/
structure Treated (k : Known) (db : Tables) (L : Var → Prop) (q : FindQuery) (inputs : Inputs) (xs : List Var) : Prop
    extends Shaped k L q inputs where
  store : DbOk k.schema db
  sources : ∀ o, WhereClause.usesAll o q.clauses = true → SourceOk db o
  find : ∃ x ∈ xs, x ∉ q.inVars
  read : ∀ ρ, IsAnswer k.schema db.facts q inputs.values ρ → ∀ x ∈ xs, (ρ x).Readable

/-- Running a statement that has to do with the answers of a query as it should gives them. -/
theorem answering_rows {a : Algebraic} (al : Answering k db L q inputs a)
    (hread : ∀ ρ, IsAnswer k.schema db.facts q inputs.values ρ → ∀ x ∈ xs, (ρ x).Readable) (hne : xs ≠ [])
    (hf : q.find = .rel (xs.map .var)) (hlim : q.limit = .none) (hub : a.cc.empty = false → a.fullyUnitBound = false)
    (h : runAlgebrized fl db a = .ok r) :
    ∃ rows : List (List TypedValue), r = .rel xs.length rows.flatten ∧
      (∀ row ∈ rows, Answers k.schema db.facts q inputs.values xs row) ∧
      (∀ row, Answers k.schema db.facts q inputs.values xs row → ∃ row' ∈ rows, List.Forall₂ TypedValue.Alike row row') ∧
      ((∀ x ∈ xs, ¬ L x) → ∀ row, Answers k.schema db.facts q inputs.values xs row → row ∈ rows) ∧
      (q.order = none → rows.Nodup) := by
  have hel : q.find.elements = xs.map .var := by rw [hf]; rfl
  unfold runAlgebrized at h
  have hfind : a.find = .rel (xs.map .var) := al.find.trans hf
  cases he : a.cc.empty with
  | true =>
    rw [he] at h
    obtain rfl := Res.ok.inj h
    refine ⟨[], by rw [hfind]; simp [QResult.empty], by simp, ?_, ?_, by simp⟩
    · rintro row ⟨ρ, hρ, -⟩; exact absurd hρ (al.empty he ρ)
    · rintro - row ⟨ρ, hρ, -⟩; exact absurd hρ (al.empty he ρ)
  | false =>
    rw [he, hub he] at h
    simp only [Bool.false_eq_true, if_false] at h
    obtain ⟨p, hp, h⟩ := bind_iff.mp h
    obtain ⟨rows, hrows, h⟩ := bind_iff.mp h
    have hul : q.find.isUnitLimited = false := by rw [hf]; rfl
    have hlim' : a.limit = .none := (al.limit.2 hul).trans hlim
    obtain ⟨ks, h1, h2, h3, h4, h5, -⟩ := rows_answers al hel he hp hrows (lim := none) (by rw [hlim']; rfl)
    rw [hfind] at h
    simp only [project] at h
    obtain ⟨vs, hvs, h⟩ := bind_iff.mp h
    obtain rfl := Res.ok.inj h
    have hvs := lookupRows_spec hvs
    rw [h1] at hvs
    have hmem : ∀ r ∈ rows, ∃ ρ, IsAnswer k.schema db.facts q inputs.values ρ ∧ List.Forall₂ TagOk (xs.map ρ) ks ∧
        (∃ suf, r = rowOf (xs.map ρ) ks ++ suf ∧ ((∀ y ∈ a.named, y ∈ xs) → suf = [])) ∧
        lookupAll r (tmplsFrom 0 ks) = .ok (xs.map ρ) := by
      intro r hr
      obtain ⟨ρ, hρ, g1, suf, g2, g3⟩ := h3 r hr
      exact ⟨ρ, hρ, g1, ⟨suf, g2, g3⟩, by rw [g2]; exact lookupAll_answer hρ.proper (hread ρ hρ) g1 suf⟩
    have hback : ∀ r ∈ rows, ∀ v, lookupAll r (tmplsFrom 0 ks) = .ok v → v ∈ vs := by
      intro r hr v hv
      obtain ⟨v', hv', h⟩ := forall₂_left hvs r hr
      rw [hv] at h
      rw [Res.ok.inj h]; exact hv'
    have hforth := forall₂_right hvs
    refine ⟨vs, by simp, ?_, ?_, ?_, ?_⟩
    · intro v hv
      obtain ⟨r, hr, hrv⟩ := hforth v hv
      obtain ⟨ρ, hρ, -, -, hlk⟩ := hmem r hr
      rw [hlk] at hrv
      exact ⟨ρ, hρ, (Res.ok.inj hrv).symm⟩
    · rintro row ⟨ρ, hρ, rfl⟩
      obtain ⟨r, hr, hr'⟩ := h4 rfl ρ hρ
      obtain ⟨ρ', hρ', g1, ⟨suf, g2, -⟩, hlk⟩ := hmem r hr
      exact ⟨xs.map ρ', hback r hr _ hlk, (hr' ρ' g1 hρ' suf g2).1⟩
    · rintro hL row ⟨ρ, hρ, rfl⟩
      obtain ⟨r, hr, hr'⟩ := h4 rfl ρ hρ
      obtain ⟨ρ', hρ', g1, ⟨suf, g2, -⟩, hlk⟩ := hmem r hr
      have : xs.map ρ = xs.map ρ' := List.map_congr_left fun x hx => (hr' ρ' g1 hρ' suf g2).2 x hx (hL x hx)
      rw [this]
      exact hback r hr _ hlk
    · intro ho
      have hnamed : ∀ y ∈ a.named, y ∈ xs := by rw [(al.order.1 ho).2]; simp
      have hdist : isDistinct a false = true := by
        unfold isDistinct
        rw [hfind, hlim']
        obtain ⟨x, hx⟩ := List.exists_mem_of_ne_nil xs hne
        have : ((xs.map Element.var).all Element.isUnit) = false := by
          rw [List.all_eq_false]
          exact ⟨.var x, List.mem_map.mpr ⟨x, hx, rfl⟩, by simp [Element.isUnit]⟩
        simp [FindSpec.elements, this]
      have hpair := h5 hdist
      refine forall₂_nodup hvs (hpair.imp_of_mem ?_)
      intro r r' hr hr' hne v hv hv'
      obtain ⟨ρ, hρ, g1, ⟨suf, g2, g3⟩, hlk⟩ := hmem r hr
      obtain ⟨ρ', hρ', g1', ⟨suf', g2', g3'⟩, hlk'⟩ := hmem r' hr'
      rw [hlk] at hv; rw [hlk'] at hv'
      have heq : xs.map ρ = xs.map ρ' := (Res.ok.inj hv).trans (Res.ok.inj hv').symm
      rw [g2, g2', heq, g3 hnamed, g3' hnamed, rowSame_refl] at hne
      cases hne

/-- C45.  A query that finds rows gives the answers, all of them and nothing else: exactly them when the
types of the variables found are known, otherwise up to a long being given for a double of the same
number or conversely; each once, unless ordered by variables that are not found. -/
theorem C45_rows_partial (ht : Treated k db L q inputs xs) (hf : q.find = .rel (xs.map .var)) (hlim : q.limit = .none)
    (h : runQuery fl k db q inputs = .ok r) :
    ∃ rows : List (List TypedValue), r = .rel xs.length rows.flatten ∧
      (∀ row ∈ rows, Answers k.schema db.facts q inputs.values xs row) ∧
      (∀ row, Answers k.schema db.facts q inputs.values xs row → ∃ row' ∈ rows, List.Forall₂ TypedValue.Alike row row') ∧
      ((∀ x ∈ xs, ¬ L x) → ∀ row, Answers k.schema db.facts q inputs.values xs row → row ∈ rows) ∧
      (q.order = none → rows.Nodup) := by
  have hel : q.find.elements = xs.map .var := by rw [hf]; rfl
  unfold runQuery at h
  obtain ⟨a0, ha, h⟩ := bind_iff.mp h
  obtain ⟨a, al, hrun, -⟩ := algebrized fl ht.cache ht.store ht.ins (fun cc => by rw [hel]; exact deriveTypes_vars cc xs) ht.limit ht.clauses
    ht.once ht.given ht.sources ha
  rw [← hrun] at h
  exact answering_rows al.toAnswering ht.read (fun e => by obtain ⟨x, hx, -⟩ := ht.find; rw [e] at hx; cases hx) hf hlim
    (fun _ => not_fullyUnitBound al hel ht.find) h

end
end Mentat
