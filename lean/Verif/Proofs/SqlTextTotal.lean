import Verif.Proofs.SqlTextQuery
/-
Printing a select query succeeds, unless it projects no columns or has rows of no width.
-/
namespace Mentat
namespace SqlText

/-- It succeeds, or panics where it may. -/
def Fine (x : Res Builder) (ok : Bool) : Prop :=
  (∃ b', x = .ok b' ∧ b'.pre = ['$', 'v']) ∨ (x = .panic ∧ ok = false)

theorem Fine.bind {x : Res Builder} {f : Builder → Res Builder} {o o' : Bool} (h : Fine x o)
    (hf : ∀ b, b.pre = ['$', 'v'] → Fine (f b) o') : Fine (x.bind f) (o && o') := by
  rcases h with ⟨b, rfl, hb⟩ | ⟨rfl, rfl⟩
  · rcases hf b hb with h | ⟨h1, rfl⟩
    · exact .inl h
    · exact .inr ⟨h1, by simp⟩
  · exact .inr ⟨rfl, rfl⟩

theorem Fine.bindT {x : Res Builder} {f : Builder → Res Builder} {o : Bool} (h : Fine x o)
    (hf : ∀ b, b.pre = ['$', 'v'] → Fine (f b) true) : Fine (x.bind f) o := by
  have := h.bind hf; simpa using this

theorem Fine.bindL {x : Res Builder} {f : Builder → Res Builder} {o : Bool} (h : Fine x true)
    (hf : ∀ b, b.pre = ['$', 'v'] → Fine (f b) o) : Fine (x.bind f) o := by
  have := h.bind hf; simpa using this

theorem Fine.ok {b : Builder} {o : Bool} (h : b.pre = ['$', 'v']) : Fine (.ok b) o := .inl ⟨b, rfl, h⟩

theorem pre_value {R : Rust} (b : Builder) (v : TypedValue) : (b.value R v).pre = b.pre := by
  cases v <;> simp only [Builder.value, Builder.push, Builder.staticArg] <;> split <;> rfl

theorem pre_identifier (b : Builder) (t : Text) : (b.identifier t).pre = b.pre := rfl

theorem pre_column (b : Builder) (c : Column) : (pushColumn b c).pre = b.pre := by
  cases c <;> rfl

theorem pre_expr {R : Rust} : ∀ (e : Expr) (b : Builder), (pushExpr R b e).pre = b.pre
  | .column al c, b => pre_column _ c
  | .existing n, b => rfl
  | .entid _, b => rfl
  | .integer _, b => rfl
  | .long _, b => rfl
  | .value v, b => pre_value b v
  | .aggregate op arg, b => by
    simp only [pushExpr]
    exact (pre_expr arg _)

theorem fine_rest {α : Type} {f : Builder → α → Res Builder} {sep : Text}
    (hf : ∀ b x, b.pre = ['$', 'v'] → Fine (f b x) true) :
    ∀ (l : List α) (b : Builder), b.pre = ['$', 'v'] → Fine (interRest f sep l b) true := by
  intro l
  induction l with
  | nil => intro b hb; exact .ok (by exact hb)
  | cons x l ih => intro b hb; exact (hf _ x (by exact hb)).bindT fun b hb => ih b hb

theorem fine_inter {α : Type} {f : Builder → α → Res Builder} {sep : Text}
    (hf : ∀ b x, b.pre = ['$', 'v'] → Fine (f b x) true) (l : List α) (b : Builder) (hb : b.pre = ['$', 'v']) :
    Fine (inter f sep l b) true := by
  cases l with
  | nil => exact .ok (by exact hb)
  | cons x l => exact (hf _ x (by exact hb)).bindT fun b hb => fine_rest hf l b hb

theorem fine_projection {R : Rust} (b : Builder) (hb : b.pre = ['$', 'v']) (p : Projection) :
    Fine (pushProjection R b p) p.printable := by
  cases p with
  | one => exact .ok (by exact hb)
  | star => exact .ok (by exact hb)
  | columns cs =>
    simp only [pushProjection, Projection.printable]
    cases h : cs.isEmpty with
    | true => exact .inr ⟨by simp, rfl⟩
    | false =>
      simp only [Bool.false_eq_true, if_false]
      exact fine_inter (fun b x hb => .ok ((pre_expr x.1 b).trans hb)) cs b hb

theorem fine_rows {R : Rust} (b : Builder) (hb : b.pre = ['$', 'v']) (size : Nat) (vs : List TypedValue) :
    Fine (pushRows R b size vs) (size != 0) := by
  simp only [pushRows]
  split
  · rename_i h; exact .inr ⟨rfl, by simp [h]⟩
  · rename_i h
    have : (size != 0) = true := by simpa using h
    rw [this]
    refine fine_inter (fun b x hb => ?_) _ _ hb
    exact (fine_inter (fun b v hb => .ok ((pre_value b v).trans hb)) x _ (by exact hb)).bindT fun b hb => .ok (by exact hb)

theorem fine_values {R : Rust} (b : Builder) (hb : b.pre = ['$', 'v']) (v : Values) :
    Fine (pushValues R b v) v.printable := by
  cases v with
  | unnamed size vs => exact fine_rows b hb size vs
  | named names vs =>
    have h1 : Values.printable (.named names vs) = (true && (names.length != 0)) := by
      cases names <;> rfl
    rw [h1]
    exact (fine_inter (fun b x hb => .ok (by exact hb)) names _ (by exact hb)).bind fun b hb => fine_rows _ (by exact hb) _ _

theorem fine_groups (l : List Group) (b : Builder) (hb : b.pre = ['$', 'v']) :
    Fine (if l.isEmpty then Res.ok b else inter pushGroup ", ".toList l (b.push " GROUP BY ".toList)) true := by
  split
  · exact .ok hb
  · refine fine_inter (fun b x hb => ?_) _ _ hb
    cases x
    · exact .ok hb
    · exact .ok ((pre_column _ _).trans hb)

theorem fine_orders (l : List Order) (b : Builder) (hb : b.pre = ['$', 'v']) :
    Fine (if l.isEmpty then Res.ok b else inter pushOrder ", ".toList l (b.push " ORDER BY ".toList)) true := by
  split
  · exact .ok hb
  · exact fine_inter (fun b x hb => .ok (by exact hb)) _ _ hb

theorem fine_limit {R : Rust} (b : Builder) (hb : b.pre = ['$', 'v']) (l : Limit) :
    Fine (pushLimit R b l) (limitPrintable l) := by
  cases l with
  | none => exact .ok (by exact hb)
  | fixed n => exact .ok (by exact hb)
  | var x =>
    cases x with
    | nil => exact .inr ⟨rfl, rfl⟩
    | cons c x =>
      refine .inl ⟨((b.push " LIMIT ".toList).push ['$']).push
        ('i' :: x.map fun c => if c.isAlphanum then c else '_'), ?_, hb⟩
      simp only [pushLimit, selectVar, Res.bind, Builder.param]
      have h1 : ('i' :: x.map fun c => if c.isAlphanum then c else '_').all
          (fun c => R.alphanumeric c || decide (c = '_')) = true := by
        rw [List.all_eq_true]
        intro d hd
        rcases (selectVar_ids x d hd).2 with h | h
        · have hlt : d.toNat < 128 := by
            simp only [Char.isAlphanum, Char.isAlpha, Char.isUpper, Char.isLower, Char.isDigit,
              Bool.or_eq_true, Bool.and_eq_true, decide_eq_true_eq, UInt32.le_iff_toNat_le] at h
            have e : d.toNat = d.val.toNat := rfl
            rw [e]
            simp at h
            omega
          simp [Rust.alphanumeric, hlt, h]
        · simp [h]
      have h2 : (b.push " LIMIT ".toList).pre.isPrefixOf
          ('i' :: x.map fun c => if c.isAlphanum then c else '_') = false := by
        have : (b.push " LIMIT ".toList).pre = ['$', 'v'] := hb
        rw [this]; rfl
      rw [h1, h2]; rfl

mutual
theorem fine_cond {R : Rust} : ∀ (c : Cond) (b : Builder), b.pre = ['$', 'v'] →
    Fine (pushCond R b c) c.printable
  | .infix op l r, b, hb => by
    simp only [pushCond]
    exact .ok ((pre_expr r _).trans ((pre_expr l b).trans hb))
  | .isNull e, b, hb => by simp only [pushCond]; exact .ok ((pre_expr e b).trans hb)
  | .isNotNull e, b, hb => by simp only [pushCond]; exact .ok ((pre_expr e b).trans hb)
  | .and [], b, hb => by simp only [pushCond]; exact .ok (by exact hb)
  | .and (c :: cs), b, hb => by
    simp only [pushCond, Cond.printable, condsPrintable]
    exact (fine_cond c _ (by exact hb)).bind fun b hb => (fine_conds cs b hb).bindT fun b hb => .ok (by exact hb)
  | .or [], b, hb => by simp only [pushCond]; exact .ok (by exact hb)
  | .or (c :: cs), b, hb => by
    simp only [pushCond, Cond.printable, condsPrintable]
    exact (fine_cond c _ (by exact hb)).bind fun b hb => (fine_conds cs b hb).bindT fun b hb => .ok (by exact hb)
  | .in l list, b, hb => by
    simp only [pushCond, Cond.printable]
    refine (fine_inter (fun b x hb => .ok ((pre_expr x b).trans hb)) list _ ?_).bindT fun b hb => .ok (by exact hb)
    exact (pre_expr l b).trans hb
  | .notExists t, b, hb => by
    simp only [pushCond, Cond.printable]
    exact fine_source t _ (by exact hb)
  | .typeCheck e aff, b, hb => by
    simp only [pushCond]
    exact .ok ((pre_expr e _).trans hb)
theorem fine_conds {R : Rust} {sep : Text} : ∀ (cs : List Cond) (b : Builder), b.pre = ['$', 'v'] →
    Fine (pushConds R sep b cs) (condsPrintable cs)
  | [], b, hb => by simp only [pushConds]; exact .ok (by exact hb)
  | c :: cs, b, hb => by
    simp only [pushConds, condsPrintable]
    exact (fine_cond c _ (by exact hb)).bind fun b hb => fine_conds cs b hb
theorem fine_source {R : Rust} : ∀ (t : Source) (b : Builder), b.pre = ['$', 'v'] →
    Fine (pushSource R b t) t.printable
  | .table t al, b, hb => by simp only [pushSource]; exact .ok (by exact hb)
  | .union [] al, b, hb => by simp only [pushSource, Res.bind]; exact .ok (by exact hb)
  | .union (q :: qs) al, b, hb => by
    simp only [pushSource, Source.printable, queriesPrintable]
    exact ((fine_query q _ (by exact hb)).bind fun b hb => fine_queries qs b hb).bindT fun b hb => .ok (by exact hb)
  | .subquery q, b, hb => by
    simp only [pushSource, Source.printable]
    exact (fine_query q _ (by exact hb)).bindT fun b hb => .ok (by exact hb)
  | .values v al, b, hb => by
    simp only [pushSource, Source.printable]
    exact (fine_values _ (by exact hb) v).bindT fun b hb => .ok (by exact hb)
theorem fine_queries {R : Rust} : ∀ (qs : List Query) (b : Builder), b.pre = ['$', 'v'] →
    Fine (pushQueries R b qs) (queriesPrintable qs)
  | [], b, hb => by simp only [pushQueries]; exact .ok (by exact hb)
  | q :: qs, b, hb => by
    simp only [pushQueries, queriesPrintable]
    exact (fine_query q _ (by exact hb)).bind fun b hb => fine_queries qs b hb
theorem fine_sources {R : Rust} : ∀ (ts : List Source) (b : Builder), b.pre = ['$', 'v'] →
    Fine (pushSources R b ts) (sourcesPrintable ts)
  | [], b, hb => by simp only [pushSources]; exact .ok (by exact hb)
  | t :: ts, b, hb => by
    simp only [pushSources, sourcesPrintable]
    exact (fine_source t _ (by exact hb)).bind fun b hb => fine_sources ts b hb
theorem fine_from {R : Rust} : ∀ (ts : List Source) (b : Builder), b.pre = ['$', 'v'] →
    Fine (pushFrom R b ts) (sourcesPrintable ts)
  | [], b, hb => by simp only [pushFrom]; exact .ok (by exact hb)
  | t :: ts, b, hb => by
    simp only [pushFrom, sourcesPrintable]
    exact (fine_source t _ (by exact hb)).bind fun b hb => fine_sources ts b hb
theorem fine_where {R : Rust} : ∀ (cs : List Cond) (b : Builder), b.pre = ['$', 'v'] →
    Fine (pushWhere R b cs) (condsPrintable cs)
  | [], b, hb => by simp only [pushWhere]; exact .ok (by exact hb)
  | c :: cs, b, hb => by
    simp only [pushWhere, condsPrintable]
    exact (fine_cond c _ (by exact hb)).bind fun b hb => fine_conds cs b hb
theorem fine_query {R : Rust} : ∀ (q : Query) (b : Builder), b.pre = ['$', 'v'] →
    Fine (pushQuery R b q) q.printable
  | .mk distinct proj tables wh group order limit, b, hb => by
    simp only [pushQuery, Query.printable]
    refine Fine.bind (fine_projection _ (by exact hb) proj) fun b hb => ?_
    refine Fine.bind (fine_from tables b hb) fun b hb => ?_
    refine Fine.bind (fine_where wh b hb) fun b hb => ?_
    exact Fine.bindL (fine_groups group b hb) fun b hb => Fine.bindL (fine_orders order b hb) fun b hb =>
      fine_limit b hb limit
end

end SqlText
end Mentat
