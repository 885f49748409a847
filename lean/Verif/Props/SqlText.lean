import Verif.Proofs.SqlTextTotal
/-
C55: the text of the SQL means the query it was written for, whatever names and values it contains.
-/
namespace Mentat
namespace SqlText

/-! ### Arguments -/

theorem insertArg_perm (p : Text × SqlValue) : ∀ l, (insertArg p l).Perm (p :: l)
  | [] => .refl _
  | q :: r => by
    simp only [insertArg]
    split
    · exact ((insertArg_perm p r).cons q).trans (.swap p q r)
    · exact .refl _

theorem foldr_insertArg_perm : ∀ l : List (Text × SqlValue), (l.foldr insertArg []).Perm l
  | [] => .refl _
  | p :: l => (insertArg_perm p _).trans ((foldr_insertArg_perm l).cons p)

theorem inv_start : Inv {} := ⟨rfl, [], .refl _, .nil, by simp⟩
theorem once_start : Once {} := ⟨.nil, .nil, by intro p hp; cases hp⟩

theorem Inv.names_nodup {b : Builder} (h : Inv b) : (b.bindings.map Prod.fst).Nodup := by
  obtain ⟨-, is, h2, h3, -⟩ := h
  refine h2.nodup_iff.mpr ?_
  rw [List.nodup_iff_pairwise_ne] at h3 ⊢
  exact h3.map _ fun i j hij e => hij (decimal_inj (by simpa using e))

theorem get_of_mem {l : List (Text × SqlValue)} (hn : (l.map Prod.fst).Nodup) {n : Text} {v : SqlValue}
    (h : (n, v) ∈ l) : AMap.get l n = some v := by
  induction l with
  | nil => cases h
  | cons p l ih =>
    obtain ⟨k, w⟩ := p
    simp only [List.map_cons, List.nodup_cons] at hn
    rw [AMap.get_cons]
    rcases List.mem_cons.mp h with e | h
    · cases e; simp
    · have : k ≠ n := fun e => hn.1 (List.mem_map.mpr ⟨_, h, e.symm⟩)
      rw [if_neg this]; exact ih hn.2 h

theorem resolve_means {B args : List (Text × SqlValue)} (hp : args.Perm B)
    {is : List Nat} (hi : (B.map Prod.fst).Perm (is.map fun i => '$' :: 'v' :: decimal i))
    (hn : (B.map Prod.fst).Nodup) {t : Tok} {p : Piece} (h : Means B t p) : resolve args t = p := by
  have hn' : (args.map Prod.fst).Nodup := (hp.map _).nodup_iff.mpr hn
  cases p with
  | tok t' =>
    obtain ⟨rfl, h2⟩ := h
    cases t <;> first | rfl | exact absurd h2 (by simp [isParam])
  | bound v =>
    obtain ⟨n, rfl, h2⟩ := h
    simp only [resolve, get_of_mem hn' (hp.mem_iff.mpr h2)]
  | hole n =>
    obtain ⟨rfl, r, rfl⟩ := h
    have : AMap.get args ('$' :: 'i' :: r) = none := by
      rw [AMap.get_eq_none_iff]
      intro hk
      have hk' : ('$' :: 'i' :: r) ∈ B.map Prod.fst := ((hp.map Prod.fst).mem_iff).mp hk
      obtain ⟨i, -, e⟩ := List.mem_map.mp (hi.mem_iff.mp hk')
      simp at e
    simp only [resolve, this]

/-! ### C55 -/

/-- The text written for a select query, read by SQLite's tokenizer with the arguments written beside
it put in the place of their parameters, is the query: its names are read as the names they were,
whatever characters they contain (other than NUL, at which SQLite ends a statement), its texts,
keywords and UUIDs are arguments with exactly those values and never part of the text, its numbers
have their values, and the one parameter left for the caller is that of a variable limit. -/
theorem C55_reads_back_partial {R : Rust} (hR : R.Ok) {q : Query} {sql : Text} {args : List (Text × SqlValue)}
    (hq : NoNul (queryPieces R q)) (h : toSql R q = .ok (sql, args)) :
    (lex sql).map (resolve args) = queryPieces R q := by
  simp only [toSql, bind_ok, Res.ok.injEq] at h
  obtain ⟨b, hb, e⟩ := h
  obtain ⟨hi, -, t, toks, h1, h2, h3⟩ := out_query hR q {} b hb hq inv_start
  simp only [Builder.finish, Prod.mk.injEq] at e
  obtain ⟨rfl, rfl⟩ := e
  have hl : lex b.sql = toks := by
    have := h2 [] (.inr (.inl rfl))
    simp only [List.append_nil] at this
    rw [h1]
    show lexFrom .start ([] ++ t) = toks
    rw [List.nil_append, this]
    show toks ++ [] = toks
    simp
  have hnd := hi.names_nodup
  obtain ⟨-, is, hp, -, -⟩ := hi
  rw [hl]
  clear h2 hl h1
  generalize queryPieces R q = ps at h3
  induction h3 with
  | nil => rfl
  | cons hm _ ih =>
    rw [List.map_cons, ih, resolve_means (foldr_insertArg_perm _) hp hnd hm]

/-- No two arguments have the same name: distinct values never share a parameter. -/
theorem C55_arguments_distinct {R : Rust} (hR : R.Ok) {q : Query} {sql : Text}
    {args : List (Text × SqlValue)} (hq : NoNul (queryPieces R q)) (h : toSql R q = .ok (sql, args)) :
    (args.map Prod.fst).Nodup := by
  simp only [toSql, bind_ok, Res.ok.injEq] at h
  obtain ⟨b, hb, e⟩ := h
  obtain ⟨hi, -⟩ := out_query hR q {} b hb hq inv_start
  simp only [Builder.finish, Prod.mk.injEq] at e
  obtain ⟨rfl, rfl⟩ := e
  exact ((foldr_insertArg_perm _).map _).nodup_iff.mpr hi.names_nodup

/-- Equal values share an argument, except texts beginning with a colon, which may be keywords. -/
theorem C55_arguments_shared_partial {R : Rust} (hR : R.Ok) {q : Query} {sql : Text}
    {args : List (Text × SqlValue)} (hq : NoNul (queryPieces R q)) (h : toSql R q = .ok (sql, args))
    {n m : Text} {v : SqlValue} (hn : (n, v) ∈ args) (hm : (m, v) ∈ args)
    (hv : ∀ r, v ≠ .text (':' :: r)) : n = m := by
  simp only [toSql, bind_ok, Res.ok.injEq] at h
  obtain ⟨b, hb, e⟩ := h
  obtain ⟨hi, ⟨ho, -⟩, -⟩ := out_query hR q {} b hb hq inv_start
  obtain ⟨o1, o2, o3⟩ := ho once_start
  simp only [Builder.finish, Prod.mk.injEq] at e
  obtain ⟨rfl, rfl⟩ := e
  have key : ∀ {n}, (n, v) ∈ b.bindings.foldr insertArg [] →
      (∃ s, v = .text s ∧ (s, n) ∈ b.strings) ∨ (∃ bs, v = .blob bs ∧ (bs, n) ∈ b.bytes) := by
    intro n hn
    have := (foldr_insertArg_perm _).mem_iff.mp hn
    simp only [Builder.bindings, List.mem_append, List.mem_map, Prod.mk.injEq] at this
    rcases this with (h | ⟨⟨s, n'⟩, h, rfl, rfl⟩) | ⟨⟨s, n'⟩, h, rfl, rfl⟩
    · obtain ⟨r, hr⟩ := o3 _ h
      exact absurd hr (hv r)
    · exact .inl ⟨_, rfl, h⟩
    · exact .inr ⟨_, rfl, h⟩
  have uniq : ∀ {α : Type} {l : List (α × Text)} {k : α} {a c : Text}, (l.map Prod.fst).Nodup →
      (k, a) ∈ l → (k, c) ∈ l → a = c := by
    intro α l k a c hd h1 h2
    induction l with
    | nil => cases h1
    | cons p l ih =>
      simp only [List.map_cons, List.nodup_cons] at hd
      rcases List.mem_cons.mp h1 with e1 | h1 <;> rcases List.mem_cons.mp h2 with e2 | h2
      · rw [← e1] at e2; exact (Prod.mk.inj e2).2.symm
      · exact absurd (List.mem_map.mpr ⟨_, h2, by rw [← e1]⟩) hd.1
      · exact absurd (List.mem_map.mpr ⟨_, h1, by rw [← e2]⟩) hd.1
      · exact ih hd.2 h1 h2
  rcases key hn with ⟨s, rfl, h1⟩ | ⟨s, rfl, h1⟩ <;> rcases key hm with ⟨s', e, h2⟩ | ⟨s', e, h2⟩
  · cases e; exact uniq o1 h1 h2
  · cases e
  · cases e
  · cases e; exact uniq o2 h1 h2

/-- Every select query that projects something is written, and no query is refused. -/
theorem C55_total (R : Rust) (q : Query) :
    (q.printable = true → ∃ r, toSql R q = .ok r) ∧ ∀ e, toSql R q ≠ .err e := by
  have := fine_query (R := R) q {} rfl
  rcases this with ⟨b, hb, -⟩ | ⟨hb, hp⟩
  · have : toSql R q = .ok b.finish := by rw [toSql, hb]; rfl
    exact ⟨fun _ => ⟨_, this⟩, by rw [this]; simp⟩
  · have : toSql R q = .panic := by rw [toSql, hb]; rfl
    exact ⟨fun h => by simp [hp] at h, by rw [this]; simp⟩

/-- A quoted name by itself reads as that name. -/
theorem C55_identifier_partial (t : Text) (h : '\x00' ∉ t) : lex (({} : Builder).identifier t).sql = [.name t] := by
  have := reads_name h [] (.inr (.inl rfl))
  simp only [List.append_nil] at this
  have e : (({} : Builder).identifier t).sql = '`' :: (escape t ++ ['`']) := by
    simp [Builder.identifier, Builder.push]
  rw [e, lex, this]; rfl

/-- Distinct names are written differently. -/
theorem C55_identifier_injective {s t : Text} (hs : '\x00' ∉ s) (ht : '\x00' ∉ t)
    (h : (({} : Builder).identifier s).sql = (({} : Builder).identifier t).sql) : s = t := by
  have h1 := C55_identifier_partial s hs
  rw [h, C55_identifier_partial t ht] at h1
  simpa using h1.symm

/-! ### Where it fails -/

/-- The check that a caller's parameter is not one that could be generated compares it, without its
`$`, with the prefix `$v`, and so never refuses any: `v0` is accepted, and is then the parameter of
the first text. -/
theorem C55_fails_generated_parameter (R : Rust) (s : Text) :
    ∃ b, ((({} : Builder).value R (.string s)).push [' ']).param R ['v', '0'] = .ok b ∧
      lex b.sql = [.param ['v', '0'], .param ['v', '0']] ∧
      b.finish.2 = [("$v0".toList, .text s)] ∧
      resolve b.finish.2 (.param ['v', '0']) = .bound (.text s) :=
  ⟨_, rfl, rfl, rfl, rfl⟩

/-- For every number, the name it would be generated for is accepted from the caller. -/
theorem C55_fails_never_refused (R : Rust) (b : Builder) (hb : b.pre = ['$', 'v']) (i : Nat) :
    b.param R ('v' :: decimal i) = .ok ((b.push ['$']).push ('v' :: decimal i)) := by
  have h1 : ('v' :: decimal i).all (fun c => R.alphanumeric c || decide (c = '_')) = true := by
    rw [List.all_eq_true]
    intro c hc
    rcases List.mem_cons.mp hc with rfl | hc
    · rfl
    · have hd := (decimal_facts i).1 c hc
      have hlt : c.toNat < 128 := by
        simp only [Char.isDigit, Bool.and_eq_true, decide_eq_true_eq, UInt32.le_iff_toNat_le] at hd
        have e : c.toNat = c.val.toNat := rfl
        rw [e]; simp at hd; omega
      simp [Rust.alphanumeric, hlt, isAlphanum_of_isDigit hd]
  rw [Builder.param, h1, hb]; rfl

/-- Two variables whose names differ only in punctuation have the same parameter. -/
theorem C55_fails_same_parameter :
    selectVar "?a-b".toList = selectVar "?a_b".toList ∧ "?a-b".toList ≠ "?a_b".toList := by decide

/-- A name with a NUL is not read back. -/
theorem C55_fails_nul :
    lex (({} : Builder).identifier ['a', '\x00', 'b']).sql ≠ [.name ['a', '\x00', 'b']] := by decide

/-- The same keyword twice is two arguments. -/
theorem C55_fails_keywords (R : Rust) (k : Keyword) :
    ((({} : Builder).value R (.keyword k)).value R (.keyword k)).finish.2
      = [("$v0".toList, (TypedValue.keyword k).toSql.1), ("$v1".toList, (TypedValue.keyword k).toSql.1)] := rfl

/-! ### A case -/

/-- An account of Rust's standard library that meets the condition: each double exactly, as a multiple
of ten to the power of minus 1074. -/
def exampleRust : Rust where
  float d := (if d < 0 then ['-'] else []) ++ decimal (d.natAbs * 5 ^ 1074) ++ "e-1074".toList
  wideAlphanumeric _ := false
  wideNumeric _ := false

theorem exampleRust_ok : exampleRust.Ok := by
  intro d
  obtain ⟨h1, -, h3⟩ := decimal_facts (d.natAbs * 5 ^ 1074)
  refine ⟨decide (d < 0), decimal (d.natAbs * 5 ^ 1074), [], "1074".toList, true, h3, by decide, ?_, ?_⟩
  · intro c hc
    simp only [List.append_nil, List.mem_append] at hc
    rcases hc with hc | hc
    · exact h1 c hc
    · revert c; decide
  · simp [exampleRust]

/-- A query whose variable's name is an attempt at closing the quotes, with texts that look like SQL, a
repeated text, a negative number, a subquery and an unbound limit. -/
def exampleQuery : Query :=
  .mk true (.columns [(.column "datoms00".toList .e, "?x` FROM `y".toList)])
    [.table .datoms "datoms00".toList]
    [.infix .eq (.column "datoms00".toList .v) (.value (.string "' OR 1 = 1 --".toList)),
      .or [.infix .ne (.column "datoms00".toList .v) (.value (.string "' OR 1 = 1 --".toList)),
        .in (.column "datoms00".toList .a) [.entid (-5), .value (.boolean true)]],
      .notExists (.subquery (.mk false .one [.table .allDatoms "all_datoms01".toList]
        [.isNull (.column "all_datoms01".toList .tag)] [] [] .none))]
    [] [⟨false, "?x".toList, true⟩] (.var "?lim".toList)

theorem exampleQuery_printable : exampleQuery.printable = true := by decide

theorem exampleQuery_noNul : NoNul (queryPieces exampleRust exampleQuery) := by
  have : (queryPieces exampleRust exampleQuery).all (fun p => match p with
      | .tok (.name t) => !(t.contains '\x00')
      | _ => true) = true := by decide +kernel
  intro t ht hc
  have := List.all_eq_true.mp this _ ht
  simp [hc] at this

theorem exampleQuery_text :
    toSql exampleRust exampleQuery = .ok (("SELECT DISTINCT `datoms00`.e AS `?x`` FROM ``y` FROM `datoms` AS " ++
      "`datoms00` WHERE `datoms00`.v = $v0 AND (`datoms00`.v <> $v0 OR `datoms00`.a IN (-5, 1)) AND " ++
      "NOT EXISTS (SELECT 1 FROM `all_datoms` AS `all_datoms01` WHERE `all_datoms01`.value_type_tag IS " ++
      "NULL) ORDER BY `?x_value_type_tag` DESC LIMIT $ilim").toList,
      [("$v0".toList, .text "' OR 1 = 1 --".toList)]) := by decide +kernel

end SqlText
end Mentat
