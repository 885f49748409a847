import Verif.Proofs.QueryText
import Verif.Props.QueryParse
/-
C75 and C76, from the text to the query that the algebrizer gets.
-/
namespace Mentat
namespace QText
open QParse Edn EdnParse

/-- C75, meaning: every query that can be written, with any operators, functions, aggregates, types, constants and
clauses nested to any depth, is what the algebrizer gets from its text (values that read back: C07). -/
theorem C75_meaning_partial {q : FindQuery} (h : QueryOk q)
    (hr : Readable (queryForm q)) : parseFind (print (queryForm q)) = .ok q := by
  rw [parseFind, C75_reads_partial (queryUp_form h) hr]
  exact queryUp_toFind h

/-- C75, words: no other words name the operators, functions, aggregates and types (an aggregate may have the sign of a
variable or a source before it). -/
theorem C75_words :
    (∀ s o, ineqOf s = some o ↔ s = (ineqWord o).toList) ∧
    (∀ s o w, fnWord o = some w → (fnOf s = o ↔ s = w.toList)) ∧
    (∀ s o, aggOf s = some o ↔
      s = (aggWord o).toList ∨ s = '?' :: (aggWord o).toList ∨ s = '$' :: (aggWord o).toList) ∧
    (∀ k t, typeOf k = some t ↔ k.ns = some "db.type".toList ∧ k.name = (typeWord t).toList) :=
  ⟨ineqOf_word, fnOf_word, aggOf_word, typeOf_word⟩

/-- C76: a query with a repeated `:in` or `:with` variable, or with a limit variable that is not an input, is refused. -/
theorem C76_refused {v : Edn} {q : Query} (h : QueryForm v q) (hr : Readable v)
    (hb : ¬ q.inVars.Nodup ∨ ¬ q.withVars.Nodup ∨ ∃ x, q.limit = .var x ∧ x ∉ q.inVars) :
    parseFind (print v) = .err .other := by
  rw [parseFind, C75_reads_partial h hr]
  simp only [Query.toFind]
  split
  · rfl
  · split
    · rfl
    · rename_i h1 h2
      rcases hb with hb | hb | ⟨x, hx, hn⟩
      · exact absurd hb h1
      · exact absurd hb h2
      · simp [hx, hn]

/-- C76: and no other query is, once it is read. -/
theorem C76_accepted {v : Edn} {q : Query} (h : QueryForm v q) (hr : Readable v)
    (hi : q.inVars.Nodup) (hw : q.withVars.Nodup) (hl : ∀ x, q.limit = .var x → x ∈ q.inVars) :
    ∃ fq : FindQuery, parseFind (print v) = .ok fq ∧ fq.inVars = q.inVars ∧ fq.withVars = q.withVars ∧ fq.limit = q.limit ∧
      fq.order = q.order ∧ fq.clauses.length = q.clauses.length := by
  have hlen : ∀ cs : List Clause, (Clause.lowerAll cs).length = cs.length := by
    intro cs
    induction cs with
    | nil => rfl
    | cons c cs ih => rw [Clause.lowerAll, List.length_cons, ih, List.length_cons]
  rw [parseFind, C75_reads_partial h hr]
  simp only [Query.toFind, hi, hw, not_true, if_false]
  cases hq : q.limit with
  | none => exact ⟨_, rfl, rfl, rfl, rfl, rfl, hlen _⟩
  | fixed n => exact ⟨_, rfl, rfl, rfl, rfl, rfl, hlen _⟩
  | var x => exact ⟨_, if_pos (hl x hq), rfl, rfl, rfl, rfl, hlen _⟩

/-! ### An example -/

def ex : FindQuery :=
  { find := .rel [.var "?e".toList, .aggregate (some .max) [.var "?x".toList], .corresponding "?y".toList, .pull "?e".toList]
    withVars := ["?w".toList]
    inVars := ["?n".toList]
    limit := .var "?n".toList
    order := some [(false, "?x".toList), (true, "?e".toList)]
    clauses :=
      [.pattern { e := .var "?e".toList, a := .ident ⟨"f".toList, "size".toList⟩, v := .var "?x".toList, tx := .entid 1000 },
       .or (some ["?e".toList]) [.clause (.typeAnno "?x".toList (some .double)),
         .and [.whereFn .txIds [.src false, .int 5, .int 7] (.coll "?y".toList)]],
       .not none [.pred (some .le) [.var "?x".toList, .int 3]],
       .whereFn .ground [.vec [.const (.text "a".toList), .kw ⟨"f".toList, "g".toList⟩]] (.rel [some "?w".toList, none])] }

theorem C75_meaning_example : QueryOk ex ∧ Readable (queryForm ex) := by
  have hv : ∀ c s, IsVar (('?' :: c :: s)) := fun c s => ⟨_, rfl⟩
  refine ⟨⟨⟨by simp [ex, FindSpec.elements], ?_⟩, ⟨by decide, ?_⟩, ⟨by decide, ?_⟩, ?_, ?_, ⟨by simp [ex], ?_⟩, ?_⟩, readB_ok _ (by decide +kernel)⟩
  · intro e he
    simp only [ex, FindSpec.elements, List.mem_cons, List.not_mem_nil, or_false] at he
    rcases he with rfl | rfl | rfl | rfl
    · exact hv _ _
    · exact ⟨by simp, hv _ _, trivial⟩
    · exact hv _ _
    · exact hv _ _
  · intro x hx; simp only [ex, List.mem_singleton] at hx; subst hx; exact hv _ _
  · intro x hx; simp only [ex, List.mem_singleton] at hx; subst hx; exact hv _ _
  · intro n hn; simp [ex] at hn
  · intro x hx; simp only [ex, Limit.var.injEq] at hx; subst hx; simp [ex]
  · refine ⟨⟨rfl, hv _ _, trivial, hv _ _, by simp [NonValOk], ?_⟩, ⟨?_, by simp, ⟨⟨hv _ _, by simp⟩, ⟨by simp, ⟨⟨by simp, ⟨rfl, trivial, trivial, trivial⟩, ?_⟩, trivial⟩⟩, trivial⟩⟩,
      ⟨?_, by simp, ⟨⟨by simp, hv _ _, trivial, trivial⟩, trivial⟩⟩, ⟨by simp, ⟨⟨by simp, trivial, trivial, trivial⟩, trivial⟩, ?_⟩, trivial⟩
    · rintro k ⟨⟩; decide +kernel
    · rintro xs ⟨⟩; exact ⟨by simp, by decide, by intro x hx; simp only [List.mem_singleton] at hx; subst hx; exact hv _ _⟩
    · exact ⟨by simp [Binding.vars], by intro x hx; simp only [Binding.vars, List.mem_singleton, Option.some.injEq] at hx; subst hx; exact hv _ _⟩
    · rintro xs ⟨⟩
    · exact ⟨by simp [Binding.vars], by intro x hx; simp only [Binding.vars, List.mem_cons, Option.some.injEq, List.not_mem_nil, or_false, reduceCtorEq] at hx; subst hx; exact hv _ _⟩
  · rintro os ⟨⟩
    refine ⟨by simp, ?_⟩
    intro o ho
    simp only [List.mem_cons, List.not_mem_nil, or_false] at ho
    rcases ho with rfl | rfl <;> exact hv _ _

/-- `[:find ?e :with ?w ?w :where [?e _ _]]` and `[:find ?e :limit ?n :where [?e _ _]]` -/
theorem C76_refused_example :
    parseFind "[:find ?e :with ?w ?w :where [?e _ _]]".toList = .err .other ∧
    parseFind "[:find ?e :limit ?n :where [?e _ _]]".toList = .err .other := by
  constructor <;> kernel_rfl

end QText
end Mentat
