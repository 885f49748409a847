import Verif.Model.Edn
/-
What it is for a value to match a pattern, given what the placeholders stand for: matcher.rs:27-31, 53-57, 100-124.
-/
namespace Mentat.Edn

/-- `v` matches the pattern `p` with `σ` saying what each placeholder stands for. -/
inductive Matches (σ : Text → Edn) : Edn → Edn → Prop
  /-- `_` matches anything -/
  | any {v s} : Matches σ v (.plainSymbol ('_' :: s))
  /-- `?name` is the same value wherever it is -/
  | placeholder {v s} : σ ('?' :: s) = v → Matches σ v (.plainSymbol ('?' :: s))
  | symbol {s} : s.head? ≠ some '_' → s.head? ≠ some '?' → Matches σ (.plainSymbol s) (.plainSymbol s)
  | same {v} : (∀ s, v ≠ .plainSymbol s) → (∀ l, v ≠ .vector l) → (∀ l, v ≠ .list l) → (∀ l, v ≠ .set l) → (∀ l, v ≠ .map l) →
      Matches σ v v
  /-- vectors and lists match member by member -/
  | vector {vs ps : List Edn} : vs.length = ps.length → (∀ (i : Nat) v p, vs[i]? = some v → ps[i]? = some p → Matches σ v p) →
      Matches σ (.vector vs) (.vector ps)
  | list {vs ps : List Edn} : vs.length = ps.length → (∀ (i : Nat) v p, vs[i]? = some v → ps[i]? = some p → Matches σ v p) →
      Matches σ (.list vs) (.list ps)
  /-- sets match if there are as many members and each has one of the other set that it matches, `r` relating these -/
  | set {vs ps} (r : Edn → Edn → Prop) : vs.length = ps.length → (∀ v p, r v p → Matches σ v p) →
      (∀ v ∈ vs, ∃ p ∈ ps, r v p) → (∀ p ∈ ps, ∃ v ∈ vs, r v p) → Matches σ (.set vs) (.set ps)
  /-- and so do maps and their entries -/
  | map {vs ps : List (Edn × Edn)} (r : Edn × Edn → Edn × Edn → Prop) : vs.length = ps.length →
      (∀ v p, r v p → Matches σ v.1 p.1) → (∀ v p, r v p → Matches σ v.2 p.2) →
      (∀ v ∈ vs, ∃ p ∈ ps, r v p) → (∀ p ∈ ps, ∃ v ∈ vs, r v p) → Matches σ (.map (flat vs)) (.map (flat ps))

/-- Values as they are: each map is made of entries. -/
inductive Whole : Edn → Prop
  | other {v} : (∀ l, v ≠ .vector l) → (∀ l, v ≠ .list l) → (∀ l, v ≠ .set l) → (∀ l, v ≠ .map l) → Whole v
  | vector {l} : (∀ x ∈ l, Whole x) → Whole (.vector l)
  | list {l} : (∀ x ∈ l, Whole x) → Whole (.list l)
  | set {l} : (∀ x ∈ l, Whole x) → Whole (.set l)
  | map {l} : (∀ x ∈ flat l, Whole x) → Whole (.map (flat l))

/-- Patterns without placeholders. -/
inductive Free : Edn → Prop
  | symbol {s} : s.head? ≠ some '?' → Free (.plainSymbol s)
  | other {v} : (∀ s, v ≠ .plainSymbol s) → (∀ l, v ≠ .vector l) → (∀ l, v ≠ .list l) → (∀ l, v ≠ .set l) → (∀ l, v ≠ .map l) → Free v
  | vector {l} : (∀ x ∈ l, Free x) → Free (.vector l)
  | list {l} : (∀ x ∈ l, Free x) → Free (.list l)
  | set {l} : (∀ x ∈ l, Free x) → Free (.set l)
  | map {l} : (∀ x ∈ l, Free x) → Free (.map l)

/-- Patterns without placeholders in sets and maps. -/
inductive Ordered : Edn → Prop
  | other {v} : (∀ l, v ≠ .vector l) → (∀ l, v ≠ .list l) → (∀ l, v ≠ .set l) → (∀ l, v ≠ .map l) → Ordered v
  | vector {l} : (∀ x ∈ l, Ordered x) → Ordered (.vector l)
  | list {l} : (∀ x ∈ l, Ordered x) → Ordered (.list l)
  | set {l} : (∀ x ∈ l, Free x) → Ordered (.set l)
  | map {l} : (∀ x ∈ l, Free x) → Ordered (.map l)

end Mentat.Edn
