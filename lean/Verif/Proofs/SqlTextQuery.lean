import Verif.Proofs.SqlText
/-
The text of a select query reads back as the query.
-/
namespace Mentat
namespace SqlText

theorem bind_ok {α β : Type} {x : Res α} {f : α → Res β} {b : β} :
    x.bind f = .ok b ↔ ∃ a, x = .ok a ∧ f a = .ok b := by
  cases x <;> simp [Res.bind]

def isParam : Tok → Bool
  | .param _ => true
  | _ => false

/-- The generated names are distinct. -/
def Inv (b : Builder) : Prop :=
  b.pre = ['$', 'v'] ∧ ∃ is : List Nat,
    (b.bindings.map Prod.fst).Perm (is.map fun i => '$' :: 'v' :: decimal i) ∧ is.Nodup ∧
    ∀ i ∈ is, i < b.counter

/-- Texts and bytes are arguments once; the other arguments are keywords. -/
def Once (b : Builder) : Prop :=
  (b.strings.map Prod.fst).Nodup ∧ (b.bytes.map Prod.fst).Nodup ∧
  ∀ p ∈ b.args, ∃ r, p.2 = .text (':' :: r)

/-- What a token stands for. -/
def Means (B : List (Text × SqlValue)) (t : Tok) : Piece → Prop
  | .tok t' => t = t' ∧ isParam t = false
  | .bound v => ∃ n, t = .param n ∧ ('$' :: n, v) ∈ B
  | .hole n => t = .param n ∧ ∃ r, n = 'i' :: r

theorem Means.mono {B B' : List (Text × SqlValue)} (h : ∀ p ∈ B, p ∈ B') {t : Tok} {p : Piece}
    (hm : Means B t p) : Means B' t p := by
  cases p with
  | tok t' => exact hm
  | bound v => obtain ⟨n, h1, h2⟩ := hm; exact ⟨n, h1, h _ h2⟩
  | hole n => exact hm

/-- What was written between the two states reads as the pieces: before a separator, or, if `k`,
before anything. -/
def Out (k : Bool) (b b' : Builder) (ps : List Piece) : Prop :=
  Inv b → Inv b' ∧ ((Once b → Once b') ∧ ∀ p ∈ b.bindings, p ∈ b'.bindings) ∧
    ∃ t toks, b'.sql = b.sql ++ t ∧ Reads k t toks ∧ List.Forall₂ (Means b'.bindings) toks ps

theorem Out.refl {k : Bool} (b : Builder) : Out k b b [] := fun hb =>
  ⟨hb, ⟨id, fun _ h => h⟩, [], [], by simp, fun _ _ => rfl, .nil⟩

theorem Out.weaken {k : Bool} {b b' : Builder} {ps : List Piece} (h : Out true b b' ps) : Out k b b' ps :=
  fun hb => by
    obtain ⟨h1, h2, t, toks, h3, h4, h5⟩ := h hb
    exact ⟨h1, h2, t, toks, h3, h4.weaken, h5⟩

theorem forall₂_append {α β : Type} {R : α → β → Prop} {a c : List α} {b d : List β}
    (h : List.Forall₂ R a b) (h' : List.Forall₂ R c d) : List.Forall₂ R (a ++ c) (b ++ d) := by
  induction h with
  | nil => exact h'
  | cons h _ ih => exact .cons h ih

theorem Out.trans {k : Bool} {b b1 b2 : Builder} {ps ps' : List Piece} (h : Out true b b1 ps)
    (h' : Out k b1 b2 ps') : Out k b b2 (ps ++ ps') := fun hb => by
  obtain ⟨i1, s1, t1, l1, e1, r1, m1⟩ := h hb
  obtain ⟨i2, s2, t2, l2, e2, r2, m2⟩ := h' i1
  refine ⟨i2, ⟨fun o => s2.1 (s1.1 o), fun p hp => s2.2 p (s1.2 p hp)⟩, t1 ++ t2, l1 ++ l2, by rw [e2, e1, List.append_assoc],
    r1.append r2, forall₂_append (m1.imp fun _ _ => Means.mono s2.2) m2⟩

theorem bindings_push (b : Builder) (t : Text) : (b.push t).bindings = b.bindings := rfl

theorem inv_push {b : Builder} (h : Inv b) (t : Text) : Inv (b.push t) := h

theorem means_toks {B : List (Text × SqlValue)} {toks : List Tok} (h : toks.all (fun t => !isParam t) = true) :
    List.Forall₂ (Means B) toks (toks.map .tok) := by
  induction toks with
  | nil => exact .nil
  | cons t l ih =>
    simp only [List.all_cons, Bool.and_eq_true, Bool.not_eq_true'] at h
    exact .cons ⟨rfl, h.1⟩ (ih h.2)

/-- Fixed text. -/
theorem Out.fix {k : Bool} (b : Builder) {t : Text} {toks : List Tok} (h : Reads k t toks)
    (hp : toks.all (fun t => !isParam t) = true) : Out k b (b.push t) (toks.map .tok) := fun hb =>
  ⟨inv_push hb t, ⟨id, fun _ h => h⟩, t, toks, rfl, h, means_toks hp⟩

/-- Fixed text beginning with a separator. -/
theorem Out.part {k k' : Bool} {b b' : Builder} {ps : List Piece} (h : Out k b b' ps) {t : Text}
    {toks : List Tok} (hs : Parts t) (ht : Reads k' t toks)
    (hp : toks.all (fun t => !isParam t) = true) : Out k' b (b'.push t) (ps ++ toks.map .tok) := fun hb => by
  obtain ⟨i1, s1, t1, l1, e1, r1, m1⟩ := h hb
  refine ⟨inv_push i1 t, s1, t1 ++ t, l1 ++ toks, ?_, r1.part hs ht, forall₂_append m1 (means_toks hp)⟩
  simp [Builder.push, e1]

theorem noNul_nil : NoNul [] := by intro t h; cases h

theorem noNul_append {a b : List Piece} : NoNul (a ++ b) ↔ NoNul a ∧ NoNul b := by
  unfold NoNul
  constructor
  · exact fun h => ⟨fun t ht => h t (by simp [ht]), fun t ht => h t (by simp [ht])⟩
  · rintro ⟨h1, h2⟩ t ht
    rcases List.mem_append.mp ht with ht | ht
    · exact h1 t ht
    · exact h2 t ht

theorem noNul_cons {p : Piece} {l : List Piece} : NoNul (p :: l) ↔ NoNul [p] ∧ NoNul l := by
  rw [← noNul_append]; rfl

theorem noNul_name {t : Text} (h : NoNul [N t]) : '\x00' ∉ t := h t (by simp [N])

theorem Out.identifier (b : Builder) {t : Text} (h : NoNul [N t]) : Out false b (b.identifier t) [N t] := by
  have := Out.fix b (reads_name (noNul_name h)) rfl
  have e : b.push ('`' :: (escape t ++ ['`'])) = b.identifier t := by
    simp [Builder.identifier, Builder.push]
  rw [e] at this; exact this

/-! ### Values -/

theorem name_ids (i : Nat) : ∀ c ∈ 'v' :: decimal i, idChar c = true := by
  intro c hc
  rcases List.mem_cons.mp hc with rfl | hc
  · rfl
  · exact idChar_of_isDigit ((decimal_facts i).1 c hc)

/-- The name of an argument already bound. -/
theorem Out.known {b : Builder} {n : Text} {v : SqlValue} (h : (n, v) ∈ b.bindings) :
    Out false b (b.push n) [.bound v] := fun hb => by
  obtain ⟨h1, is, h2, h3, h4⟩ := hb
  have hn : n ∈ b.bindings.map Prod.fst := List.mem_map.mpr ⟨_, h, rfl⟩
  obtain ⟨i, hi, rfl⟩ := List.mem_map.mp (h2.mem_iff.mp hn)
  refine ⟨inv_push ⟨h1, is, h2, h3, h4⟩ _, ⟨id, fun _ h => h⟩, _, _, rfl, reads_param (name_ids i),
    .cons ⟨_, rfl, ?_⟩ .nil⟩
  exact h

/-- A new argument. -/
theorem Out.fresh {b b' : Builder} {v : SqlValue} (hs : b'.sql = b.sql ++ b.nextName) (hp : b'.pre = b.pre)
    (hc : b'.counter = b.counter + 1) (hb' : b'.bindings.Perm ((b.nextName, v) :: b.bindings)) (ho : Once b → Once b') :
    Out false b b' [.bound v] := fun hb => by
  obtain ⟨h1, is, h2, h3, h4⟩ := hb
  have hn : b.nextName = '$' :: 'v' :: decimal b.counter := by simp [Builder.nextName, h1]
  refine ⟨⟨hp.trans h1, b.counter :: is, ?_, ?_, ?_⟩, ?_, _, _, hs, ?_, .cons ⟨'v' :: decimal b.counter, rfl, ?_⟩ .nil⟩
  · refine (hb'.map Prod.fst).trans ?_
    simp only [List.map_cons, hn]
    exact h2.cons _
  · exact List.nodup_cons.mpr ⟨fun h => absurd (h4 _ h) (by omega), h3⟩
  · intro i hi
    rcases List.mem_cons.mp hi with rfl | hi
    · omega
    · have := h4 i hi; omega
  · exact ⟨ho, fun p hp => hb'.mem_iff.mpr (by simp [hp])⟩
  · rw [hn]; exact reads_param (name_ids _)
  · rw [← hn]; exact hb'.mem_iff.mpr (by simp)

theorem perm_mid {α : Type} (a b c : List α) (x : α) : (a ++ (b ++ [x]) ++ c).Perm (x :: (a ++ b ++ c)) := by
  have : a ++ (b ++ [x]) ++ c = (a ++ b) ++ x :: c := by simp
  rw [this]; exact List.perm_middle

theorem out_int (b : Builder) (n : Int) : Out false b (b.push (intText n)) (intPieces n) := by
  obtain ⟨toks, h1, h2, h3⟩ := reads_int n
  rw [h2]
  refine Out.fix b h1 (List.all_eq_true.mpr fun t ht => ?_)
  cases t <;> first | rfl | exact absurd rfl (h3 _ ht _)

theorem nodup_snoc {α β : Type} {l : List (α × β)} {k : α} {v : β} (h : (l.map Prod.fst).Nodup)
    (hk : k ∉ AMap.keys l) : ((l ++ [(k, v)]).map Prod.fst).Nodup := by
  have hk' : k ∉ l.map Prod.fst := hk
  rw [List.map_append, List.nodup_append]
  refine ⟨h, by simp, ?_⟩
  intro a ha b hb
  simp only [List.map_cons, List.map_nil, List.mem_singleton] at hb
  subst hb; rintro rfl; exact hk' ha

theorem keyword_colon (k : Keyword) : ∃ r, (TypedValue.keyword k).toSql.1 = .text (':' :: r) := by
  simp only [TypedValue.toSql, NName.displayKeyword]
  exact ⟨_, rfl⟩

theorem out_value {R : Rust} (hR : R.Ok) (b : Builder) (v : TypedValue) :
    Out false b (b.value R v) (valuePieces R v) := by
  cases v with
  | ref e => exact out_int b e
  | long n => exact out_int b n
  | instant us => exact out_int b us
  | boolean x =>
    cases x
    · exact Out.fix b (toks := [.num 0]) (reads_decimal 0) rfl
    · exact Out.fix b (toks := [.num 1]) (reads_decimal 1) rfl
  | double d =>
    obtain ⟨toks, h1, h2, h3⟩ := reads_float (hR d)
    simp only [valuePieces, Builder.value]
    rw [h2]
    refine Out.fix b h1 (List.all_eq_true.mpr fun t ht => ?_)
    cases t <;> first | rfl | exact absurd rfl (h3 _ ht _)
  | keyword k =>
    refine Out.fresh rfl rfl rfl ?_ ?_
    · simp only [Builder.value, Builder.staticArg, Builder.bindings, Builder.push]
      have := perm_mid [] b.args (b.strings.map (fun p => (p.2, SqlValue.text p.1)) ++
        b.bytes.map fun p => (p.2, SqlValue.blob p.1)) (b.nextName, (TypedValue.keyword k).toSql.1)
      simpa only [List.nil_append, List.append_assoc] using this
    · rintro ⟨h1, h2, h3⟩
      refine ⟨h1, h2, fun p hp => ?_⟩
      rcases List.mem_append.mp hp with hp | hp
      · exact h3 p hp
      · obtain rfl := List.mem_singleton.mp hp
        exact keyword_colon k
  | string s =>
    simp only [Builder.value, valuePieces]
    cases hg : AMap.get b.strings s with
    | some n =>
      refine Out.known ?_
      have := AMap.get_some_mem hg
      simp only [Builder.bindings, List.mem_append, List.mem_map]
      exact .inl (.inr ⟨_, this, rfl⟩)
    | none =>
      refine Out.fresh rfl rfl rfl ?_ ?_
      · simp only [Builder.bindings, Builder.push, List.map_append, List.map_cons, List.map_nil]
        exact perm_mid _ _ _ _
      · rintro ⟨h1, h2, h3⟩
        refine ⟨?_, h2, h3⟩
        exact nodup_snoc h1 (AMap.get_eq_none_iff.mp hg)
  | uuid u =>
    simp only [Builder.value, valuePieces]
    cases hg : AMap.get b.bytes (toBytes 16 u) with
    | some n =>
      refine Out.known ?_
      have := AMap.get_some_mem hg
      simp only [Builder.bindings, List.mem_append, List.mem_map, TypedValue.toSql]
      exact .inr ⟨_, this, rfl⟩
    | none =>
      refine Out.fresh rfl rfl rfl ?_ ?_
      · simp only [Builder.bindings, Builder.push, List.map_append, List.map_cons, List.map_nil,
          TypedValue.toSql]
        have := perm_mid (b.args ++ b.strings.map fun p => (p.2, SqlValue.text p.1))
          (b.bytes.map fun p => (p.2, SqlValue.blob p.1)) [] (b.nextName, SqlValue.blob (toBytes 16 u))
        simpa only [List.append_nil] using this
      · rintro ⟨h1, h2, h3⟩
        refine ⟨h1, ?_, h3⟩
        exact nodup_snoc h2 (AMap.get_eq_none_iff.mp hg)

/-! ### Columns and expressions -/

theorem reads_word {w : Text} {c : Char} {r : Text} (hw : w = c :: r) (hb : begins c = ([], .word [c]))
    (hi : ∀ x ∈ r, idChar x = true) : Reads false w [.word w] := by
  intro rest hr
  subst hw
  have hs : Sep rest := by simpa using hr
  rw [List.cons_append, lex_start, hb, List.nil_append, word_run r _ _ hi]
  refine lex_sep rfl ?_ hs
  rintro y (rfl | rfl | rfl) <;> rfl

theorem out_word (b : Builder) (s : String) {c : Char} {r : Text} (hw : s.toList = c :: r)
    (hb : begins c = ([], .word [c])) (hi : r.all idChar = true) : Out false b (b.push s.toList) [W s] :=
  Out.fix b (reads_word hw hb (by simpa using hi)) rfl

theorem out_column (b : Builder) (c : Column) (hn : NoNul (columnPieces c)) :
    Out false b (pushColumn b c) (columnPieces c) := by
  cases c with
  | e => exact out_word b "e" rfl rfl rfl
  | a => exact out_word b "a" rfl rfl rfl
  | v => exact out_word b "v" rfl rfl rfl
  | tx => exact out_word b "tx" rfl rfl rfl
  | tag => exact out_word b "value_type_tag" rfl rfl rfl
  | added => exact out_word b "added" rfl rfl rfl
  | rowid => exact out_word b "rowid" rfl rfl rfl
  | text => exact out_word b "text" rfl rfl rfl
  | var x => exact Out.identifier b hn
  | varTag x => exact Out.identifier b hn

theorem out_qualified (b : Builder) (al : Text) (c : Column) (hn : NoNul (qualifiedPieces al c)) :
    Out false b (pushQualified b al c) (qualifiedPieces al c) := by
  have h1 := noNul_cons.mp hn
  have h2 := (noNul_cons.mp h1.2).2
  have := Out.fix b (reads_name_dot (noNul_name h1.1)) rfl
  have e : b.push ('`' :: (escape al ++ ['`']) ++ ['.']) = (b.identifier al).push ['.'] := by
    simp [Builder.identifier, Builder.push]
  rw [e] at this
  exact this.trans (out_column _ c h2)

theorem out_expr {R : Rust} (hR : R.Ok) : ∀ (e : Expr) (b : Builder), NoNul (exprPieces R e) →
    Out false b (pushExpr R b e) (exprPieces R e)
  | .column al c, b, hn => out_qualified b al c hn
  | .existing n, b, hn => Out.identifier b hn
  | .entid e, b, _ => out_int b e
  | .integer e, b, _ => out_int b e
  | .long e, b, _ => out_int b e
  | .value v, b, _ => out_value hR b v
  | .aggregate op arg, b, hn => by
    have h1 := (noNul_cons.mp hn).2
    have h2 := (noNul_cons.mp h1).2
    have h3 := (noNul_append.mp h2).1
    have e : (b.push (aggName op)).push ['('] = b.push (aggName op ++ ['(']) := by
      simp [Builder.push]
    have r : Reads true (aggName op ++ ['(']) [.word (aggName op), .punct '('] := by
      cases op <;> exact fun rest _ => rfl
    simp only [pushExpr, exprPieces]
    rw [e]
    have := ((Out.fix b r rfl).trans (out_expr hR arg _ h3)).part (t := [')']) (k' := false)
      (toks := [.punct ')']) ⟨_, _, rfl, .inr (.inr rfl)⟩ (fun _ _ => rfl) rfl
    simpa [P] using this

/-! ### Lists -/

theorem comma_parts : Parts ", ".toList := ⟨',', [' '], rfl, .inr (.inl rfl)⟩
theorem comma_reads : Reads true ", ".toList [.punct ','] := fun _ _ => rfl

theorem out_rest {α : Type} {f : Builder → α → Res Builder} {g : α → List Piece}
    (hf : ∀ x b b', f b x = .ok b' → NoNul (g x) → Out false b b' (g x)) :
    ∀ (l : List α) (b0 b b' : Builder) (ps : List Piece), interRest f ", ".toList l b = .ok b' →
      NoNul (restPieces g [P ','] l) → Out false b0 b ps → Out false b0 b' (ps ++ restPieces g [P ','] l) := by
  intro l
  induction l with
  | nil =>
    intro b0 b b' ps h _ ho
    simp only [interRest, Res.ok.injEq] at h
    subst h; simpa [restPieces] using ho
  | cons x l ih =>
    intro b0 b b' ps h hn ho
    simp only [interRest, bind_ok] at h
    obtain ⟨b1, h1, h2⟩ := h
    have hn' : NoNul ((P ',' :: g x) ++ restPieces g [P ','] l) := by simpa [restPieces] using hn
    have hx := (noNul_cons.mp (noNul_append.mp hn').1).2
    have := ih b0 b1 b' _ h2 (noNul_append.mp hn').2
      ((ho.part comma_parts comma_reads rfl).trans (hf x _ _ h1 hx))
    simpa [restPieces, P] using this

theorem out_inter {α : Type} {f : Builder → α → Res Builder} {g : α → List Piece}
    (hf : ∀ x b b', f b x = .ok b' → NoNul (g x) → Out false b b' (g x)) {l : List α} {b b' : Builder}
    (h : inter f ", ".toList l b = .ok b') (hn : NoNul (sepPieces g [P ','] l)) :
    Out false b b' (sepPieces g [P ','] l) := by
  cases l with
  | nil =>
    simp only [inter, Res.ok.injEq] at h
    subst h; exact Out.refl b
  | cons x l =>
    simp only [inter, bind_ok] at h
    obtain ⟨b1, h1, h2⟩ := h
    have hn' := noNul_append.mp hn
    exact out_rest hf l b b1 b' _ h2 hn'.2 (hf x _ _ h1 hn'.1)

/-! ### Projections and values -/

theorem out_as {k : Bool} {b b' : Builder} {ps : List Piece} {t : Text} (h : Out k b b' ps) (hn : NoNul [N t]) :
    Out false b ((b'.push " AS ".toList).identifier t) (ps ++ [W "AS", N t]) := by
  have h1 := h.part (t := " AS ".toList) (k' := true) (toks := [.word "AS".toList])
    ⟨' ', _, rfl, .inl rfl⟩ (fun _ _ => rfl) rfl
  have := h1.trans (Out.identifier _ hn)
  simpa [W] using this

theorem out_projection {R : Rust} (hR : R.Ok) {b b' : Builder} {p : Projection}
    (h : pushProjection R b p = .ok b') (hn : NoNul (projectionPieces R p)) :
    Out false b b' (projectionPieces R p) := by
  cases p with
  | one =>
    simp only [pushProjection, Res.ok.injEq] at h; subst h
    exact Out.fix b (toks := [.num 1]) (reads_decimal 1) rfl
  | star =>
    simp only [pushProjection, Res.ok.injEq] at h; subst h
    exact Out.fix b (toks := [.punct '*']) (fun _ _ => rfl) rfl
  | columns cs =>
    simp only [pushProjection] at h
    split at h
    · simp at h
    · refine out_inter ?_ h hn
      intro x b b' hx hn
      simp only [pushProjected, Res.ok.injEq] at hx; subst hx
      have hn' := noNul_append.mp hn
      exact out_as (out_expr hR x.1 b hn'.1) (noNul_cons.mp hn'.2).2

theorem out_tuple {R : Rust} (hR : R.Ok) {b b' : Builder} {vs : List TypedValue}
    (h : pushTuple R b vs = .ok b') (hn : NoNul (tuplePieces R vs)) : Out false b b' (tuplePieces R vs) := by
  simp only [pushTuple, bind_ok, Res.ok.injEq] at h
  obtain ⟨b1, h1, rfl⟩ := h
  have hn' := (noNul_append.mp hn).1
  have h2 := out_inter (g := valuePieces R) (fun x b b' hx _ => by
    simp only [Res.ok.injEq] at hx; subst hx; exact out_value hR b x) h1 (noNul_cons.mp hn').2
  have h3 : Out true b (b.push ['(']) [P '('] := Out.fix b (toks := [.punct '(']) (fun _ _ => rfl) rfl
  exact (h3.trans h2).part (toks := [.punct ')']) ⟨_, _, rfl, .inr (.inr rfl)⟩ (fun _ _ => rfl) rfl

theorem out_rows {R : Rust} (hR : R.Ok) {b b' : Builder} {size : Nat} {vs : List TypedValue}
    (h : pushRows R b size vs = .ok b') (hn : NoNul (rowsPieces R size vs)) :
    Out false b b' (rowsPieces R size vs) := by
  simp only [pushRows] at h
  split at h
  · simp at h
  · have h3 : Out true b (b.push "VALUES ".toList) [W "VALUES"] :=
      Out.fix b (toks := [.word "VALUES".toList]) (fun _ _ => rfl) rfl
    exact h3.trans (out_inter (fun x b b' hx hn => out_tuple hR hx hn) h (noNul_cons.mp hn).2)

theorem out_values {R : Rust} (hR : R.Ok) {b b' : Builder} {v : Values}
    (h : pushValues R b v = .ok b') (hn : NoNul (valuesPieces R v)) : Out false b b' (valuesPieces R v) := by
  cases v with
  | unnamed size vs => exact out_rows hR h hn
  | named names vs =>
    simp only [pushValues, bind_ok] at h
    obtain ⟨b1, h1, h2⟩ := h
    have n1 := noNul_append.mp hn
    have n2 := noNul_append.mp n1.1
    have h3 : Out true b (b.push "SELECT ".toList) [W "SELECT"] :=
      Out.fix b (toks := [.word "SELECT".toList]) (fun _ _ => rfl) rfl
    have h4 := h3.trans (out_inter (g := fun x => [.tok (.num 0), W "AS", N x]) (fun x b b' hx hn => by
      simp only [pushZeroAs, Res.ok.injEq] at hx; subst hx
      have : Out true b (b.push "0 AS ".toList) [.tok (.num 0), W "AS"] :=
        Out.fix b (toks := [.num 0, .word "AS".toList]) (fun _ _ => rfl) rfl
      exact this.trans (Out.identifier _ (noNul_cons.mp (noNul_cons.mp hn).2).2)) h1 (noNul_cons.mp n2.1).2)
    have h5 := h4.part (t := " WHERE 0 UNION ALL ".toList) (k' := true)
      (toks := [.word "WHERE".toList, .num 0, .word "UNION".toList, .word "ALL".toList])
      ⟨' ', _, rfl, .inl rfl⟩ (fun _ _ => rfl) rfl
    exact h5.trans (out_rows hR h2 n1.2)

/-! ### Groups, orders, limits -/

theorem out_group {b b' : Builder} {g : Group} (h : pushGroup b g = .ok b') (hn : NoNul (groupPieces g)) :
    Out false b b' (groupPieces g) := by
  cases g with
  | projected n => simp only [pushGroup, Res.ok.injEq] at h; subst h; exact Out.identifier b hn
  | column al c => simp only [pushGroup, Res.ok.injEq] at h; subst h; exact out_qualified b al c hn

theorem out_order {b b' : Builder} {o : Order} (h : pushOrder b o = .ok b') (hn : NoNul (orderPieces o)) :
    Out false b b' (orderPieces o) := by
  simp only [pushOrder, Res.ok.injEq] at h; subst h
  have h1 := Out.identifier b (noNul_cons.mp hn).1
  unfold orderPieces tagName at *
  cases o.ascending with
  | true =>
    exact h1.part (toks := [.word "ASC".toList]) ⟨' ', _, rfl, .inl rfl⟩
      (fun rest hr => (reads_word (w := "ASC".toList) rfl rfl (by simp; decide)) rest hr) rfl
  | false =>
    exact h1.part (toks := [.word "DESC".toList]) ⟨' ', _, rfl, .inl rfl⟩
      (fun rest hr => (reads_word (w := "DESC".toList) rfl rfl (by simp; decide)) rest hr) rfl

theorem out_groups {l : List Group} {b0 b b' : Builder} {ps : List Piece}
    (h : (if l.isEmpty then Res.ok b else inter pushGroup ", ".toList l (b.push " GROUP BY ".toList)) = .ok b')
    (hn : NoNul (if l.isEmpty then [] else W "GROUP" :: W "BY" :: sepPieces groupPieces [P ','] l))
    (ho : Out false b0 b ps) :
    Out false b0 b' (ps ++ if l.isEmpty then [] else W "GROUP" :: W "BY" :: sepPieces groupPieces [P ','] l) := by
  by_cases hg : l.isEmpty = true
  · rw [if_pos hg] at h ⊢
    simp only [Res.ok.injEq] at h; subst h; rw [List.append_nil]; exact ho
  · rw [if_neg hg] at h hn ⊢
    have := (ho.part (t := " GROUP BY ".toList) (k' := true) (toks := [.word "GROUP".toList, .word "BY".toList])
      ⟨' ', _, rfl, .inl rfl⟩ (fun _ _ => rfl) rfl).trans
      (out_inter (fun x b b' hx hn => out_group hx hn) h (noNul_cons.mp (noNul_cons.mp hn).2).2)
    simpa [W] using this

theorem out_orders {l : List Order} {b0 b b' : Builder} {ps : List Piece}
    (h : (if l.isEmpty then Res.ok b else inter pushOrder ", ".toList l (b.push " ORDER BY ".toList)) = .ok b')
    (hn : NoNul (if l.isEmpty then [] else W "ORDER" :: W "BY" :: sepPieces orderPieces [P ','] l))
    (ho : Out false b0 b ps) :
    Out false b0 b' (ps ++ if l.isEmpty then [] else W "ORDER" :: W "BY" :: sepPieces orderPieces [P ','] l) := by
  by_cases hg : l.isEmpty = true
  · rw [if_pos hg] at h ⊢
    simp only [Res.ok.injEq] at h; subst h; rw [List.append_nil]; exact ho
  · rw [if_neg hg] at h hn ⊢
    have := (ho.part (t := " ORDER BY ".toList) (k' := true) (toks := [.word "ORDER".toList, .word "BY".toList])
      ⟨' ', _, rfl, .inl rfl⟩ (fun _ _ => rfl) rfl).trans
      (out_inter (fun x b b' hx hn => out_order hx hn) h (noNul_cons.mp (noNul_cons.mp hn).2).2)
    simpa [W] using this

theorem selectVar_ids (x : Text) :
    ∀ c ∈ 'i' :: x.map (fun c => if c.isAlphanum then c else '_'), idChar c = true ∧
      (c.isAlphanum = true ∨ c = '_') := by
  intro c hc
  rcases List.mem_cons.mp hc with rfl | hc
  · exact ⟨rfl, .inl rfl⟩
  · obtain ⟨d, -, rfl⟩ := List.mem_map.mp hc
    by_cases h : d.isAlphanum = true
    · rw [if_pos h]; exact ⟨idChar_of_isAlphanum h, .inl h⟩
    · rw [if_neg h]; exact ⟨rfl, .inr rfl⟩

theorem out_limit {R : Rust} {b b' : Builder} {l : Limit} (h : pushLimit R b l = .ok b') {b0 : Builder}
    {ps : List Piece} (ho : Out false b0 b ps) : Out false b0 b' (ps ++ limitPieces l) := by
  have h1 : Out true b0 (b.push " LIMIT ".toList) (ps ++ [W "LIMIT"]) :=
    ho.part (toks := [.word "LIMIT".toList]) ⟨' ', _, rfl, .inl rfl⟩ (fun _ _ => rfl) rfl
  cases l with
  | none => simp only [pushLimit, Res.ok.injEq] at h; subst h; simpa [limitPieces] using ho
  | fixed n =>
    simp only [pushLimit, Res.ok.injEq] at h; subst h
    have := h1.trans (Out.fix _ (toks := [.num n]) (reads_decimal n) rfl)
    simpa [limitPieces] using this
  | var x =>
    simp only [pushLimit, bind_ok] at h
    obtain ⟨n, h2, h3⟩ := h
    cases x with
    | nil => simp [selectVar] at h2
    | cons c x =>
      simp only [selectVar, Res.ok.injEq] at h2
      have h4 : b' = (b.push " LIMIT ".toList).push ('$' :: n) := by
        simp only [Builder.param] at h3
        split at h3
        · simp at h3
        · split at h3
          · simp at h3
          · simp only [Res.ok.injEq] at h3
            rw [← h3]; simp [Builder.push]
      subst h4 h2
      have : Out false (b.push " LIMIT ".toList) ((b.push " LIMIT ".toList).push
          ('$' :: 'i' :: x.map fun c => if c.isAlphanum then c else '_'))
          [.hole ('i' :: x.map fun c => if c.isAlphanum then c else '_')] := fun hb =>
        ⟨inv_push hb _, ⟨id, fun _ h => h⟩, _, _, rfl, reads_param fun c hc => (selectVar_ids x c hc).1,
          .cons ⟨rfl, _, rfl⟩ .nil⟩
      have := h1.trans this
      simpa [limitPieces] using this

/-! ### Constraints, tables and queries -/

theorem out_op {b0 b : Builder} {ps : List Piece} (op : Op) (h : Out false b0 b ps) :
    Out true b0 (((b.push [' ']).push op.text).push [' ']) (ps ++ [opPiece op]) := by
  have e : ((b.push [' ']).push op.text).push [' '] = b.push (' ' :: op.text ++ [' ']) := by
    simp [Builder.push]
  rw [e]
  have : ∃ tok, opPiece op = .tok tok ∧ isParam tok = false ∧ Reads true (' ' :: op.text ++ [' ']) [tok] := by
    cases op <;> exact ⟨_, rfl, rfl, fun _ _ => rfl⟩
  obtain ⟨tok, h1, h2, h3⟩ := this
  rw [h1]
  exact h.part ⟨' ', _, rfl, .inl rfl⟩ h3 (by simp [h2])

theorem out_paren (b : Builder) : Out true b (b.push ['(']) [P '('] :=
  Out.fix b (toks := [.punct '(']) (fun _ _ => rfl) rfl

theorem Out.close {b b' : Builder} {ps : List Piece} (h : Out false b b' ps) :
    Out false b (b'.push [')']) (ps ++ [P ')']) :=
  h.part (toks := [.punct ')']) ⟨_, _, rfl, .inr (.inr rfl)⟩ (fun _ _ => rfl) rfl

theorem Out.closeAs {b b' : Builder} {ps : List Piece} {t : Text} (h : Out false b b' ps) (hn : NoNul [N t]) :
    Out false b ((b'.push ") AS ".toList).identifier t) (ps ++ [P ')', W "AS", N t]) := by
  have h1 := h.part (t := ") AS ".toList) (k' := true) (toks := [.punct ')', .word "AS".toList])
    ⟨_, _, rfl, .inr (.inr rfl)⟩ (fun _ _ => rfl) rfl
  have := h1.trans (Out.identifier _ hn)
  simpa [W, P] using this

/-- A separator between constraints. -/
def SepWord (sep : Text) (w : Piece) : Prop :=
  Parts sep ∧ ∃ tok, w = .tok tok ∧ isParam tok = false ∧ Reads true sep [tok]

theorem sep_and : SepWord " AND ".toList (W "AND") := ⟨⟨' ', _, rfl, .inl rfl⟩, _, rfl, rfl, fun _ _ => rfl⟩
theorem sep_or : SepWord " OR ".toList (W "OR") := ⟨⟨' ', _, rfl, .inl rfl⟩, _, rfl, rfl, fun _ _ => rfl⟩

theorem Out.sep {b b' : Builder} {ps : List Piece} (h : Out false b b' ps) {sep : Text} {w : Piece}
    (hs : SepWord sep w) : Out true b (b'.push sep) (ps ++ [w]) := by
  obtain ⟨h1, tok, rfl, h2, h3⟩ := hs
  exact h.part h1 h3 (by simp [h2])

mutual
theorem out_cond {R : Rust} (hR : R.Ok) : ∀ (c : Cond) (b b' : Builder), pushCond R b c = .ok b' →
    NoNul (condPieces R c) → Out false b b' (condPieces R c)
  | .infix op l r, b, b', h, hn => by
    simp only [pushCond, Res.ok.injEq] at h; subst h
    simp only [condPieces] at hn ⊢
    have n1 := noNul_append.mp hn
    have := (out_op op (out_expr hR l b n1.1)).trans (out_expr hR r _ (noNul_cons.mp n1.2).2)
    simpa using this
  | .isNull e, b, b', h, hn => by
    simp only [pushCond, Res.ok.injEq] at h; subst h
    simp only [condPieces] at hn ⊢
    refine (out_expr hR e b (noNul_append.mp hn).1).part (toks := [.word "IS".toList, .word "NULL".toList])
      ⟨' ', _, rfl, .inl rfl⟩ ?_ rfl
    have h1 : Reads true " IS ".toList [.word "IS".toList] := fun _ _ => rfl
    exact h1.append (t' := "NULL".toList) (reads_word rfl rfl (by simp; decide))
  | .isNotNull e, b, b', h, hn => by
    simp only [pushCond, Res.ok.injEq] at h; subst h
    simp only [condPieces] at hn ⊢
    refine (out_expr hR e b (noNul_append.mp hn).1).part
      (toks := [.word "IS".toList, .word "NOT".toList, .word "NULL".toList]) ⟨' ', _, rfl, .inl rfl⟩ ?_ rfl
    have h1 : Reads true " IS NOT ".toList [.word "IS".toList, .word "NOT".toList] := fun _ _ => rfl
    exact h1.append (t' := "NULL".toList) (reads_word rfl rfl (by simp; decide))
  | .and [], b, b', h, _ => by
    simp only [pushCond, Res.ok.injEq] at h; subst h
    exact Out.fix b (toks := [.num 1]) (reads_decimal 1) rfl
  | .and (c :: cs), b, b', h, hn => by
    simp only [pushCond, bind_ok, Res.ok.injEq] at h
    obtain ⟨b1, h1, b2, h2, rfl⟩ := h
    simp only [condPieces] at hn ⊢
    have n1 := (noNul_cons.mp (noNul_append.mp hn).1).2
    have n2 := noNul_append.mp n1
    have := out_conds hR sep_and cs b _ _ _ h2 n2.2 ((out_paren b).trans (out_cond hR c _ _ h1 n2.1))
    simpa using this.close
  | .or [], b, b', h, _ => by
    simp only [pushCond, Res.ok.injEq] at h; subst h
    exact Out.fix b (toks := [.num 0]) (reads_decimal 0) rfl
  | .or (c :: cs), b, b', h, hn => by
    simp only [pushCond, bind_ok, Res.ok.injEq] at h
    obtain ⟨b1, h1, b2, h2, rfl⟩ := h
    simp only [condPieces] at hn ⊢
    have n1 := (noNul_cons.mp (noNul_append.mp hn).1).2
    have n2 := noNul_append.mp n1
    have := out_conds hR sep_or cs b _ _ _ h2 n2.2 ((out_paren b).trans (out_cond hR c _ _ h1 n2.1))
    simpa using this.close
  | .in l list, b, b', h, hn => by
    simp only [pushCond, bind_ok, Res.ok.injEq] at h
    obtain ⟨b1, h1, rfl⟩ := h
    simp only [condPieces] at hn ⊢
    have n1 := noNul_append.mp (noNul_append.mp hn).1
    have n2 := (noNul_cons.mp (noNul_cons.mp n1.2).2).2
    have h2 := (out_expr hR l b n1.1).part (t := " IN (".toList) (k' := true)
      (toks := [.word "IN".toList, .punct '(']) ⟨' ', _, rfl, .inl rfl⟩ (fun _ _ => rfl) rfl
    have h3 := out_inter (g := exprPieces R) (fun x b b' hx hn => by
      simp only [Res.ok.injEq] at hx; subst hx; exact out_expr hR x b hn) h1 n2
    have := (h2.trans h3).close
    simpa [W, P] using this
  | .notExists t, b, b', h, hn => by
    simp only [pushCond] at h
    simp only [condPieces] at hn ⊢
    have n1 := (noNul_cons.mp (noNul_cons.mp hn).2).2
    have h1 : Out true b (b.push "NOT EXISTS ".toList) [W "NOT", W "EXISTS"] :=
      Out.fix b (toks := [.word "NOT".toList, .word "EXISTS".toList]) (fun _ _ => rfl) rfl
    exact h1.trans (out_source hR t _ _ h n1)
  | .typeCheck e aff, b, b', h, hn => by
    simp only [pushCond, Res.ok.injEq] at h; subst h
    simp only [condPieces] at hn ⊢
    have n1 := (noNul_cons.mp (noNul_cons.mp (noNul_append.mp hn).1).2).2
    have h1 : Out true b (b.push "typeof(".toList) [W "typeof", P '('] :=
      Out.fix b (toks := [.word "typeof".toList, .punct '(']) (fun _ _ => rfl) rfl
    have h2 := (h1.trans (out_expr hR e _ n1)).part (t := ") = ".toList) (k' := true)
      (toks := [.punct ')', .op ['=']]) ⟨_, _, rfl, .inr (.inr rfl)⟩ (fun _ _ => rfl) rfl
    have h3 : Reads false ('\'' :: aff.name ++ ['\'']) [.str aff.name] := by
      intro rest hr
      have hs : Sep rest := by simpa using hr
      have : lexFrom .start (('\'' :: aff.name ++ ['\'']) ++ rest) = lexFrom (.strEnd aff.name) rest := by
        cases aff <;> rfl
      rw [this]
      refine lex_sep rfl ?_ hs
      rintro y (rfl | rfl | rfl) <;> rfl
    have := h2.trans (Out.fix _ h3 rfl)
    simpa [W, P] using this
theorem out_conds {R : Rust} (hR : R.Ok) {sep : Text} {w : Piece} (hs : SepWord sep w) :
    ∀ (cs : List Cond) (b0 b b' : Builder) (ps : List Piece), pushConds R sep b cs = .ok b' →
      NoNul (condsPieces R w cs) → Out false b0 b ps → Out false b0 b' (ps ++ condsPieces R w cs)
  | [], b0, b, b', ps, h, _, ho => by
    simp only [pushConds, Res.ok.injEq] at h; subst h
    simpa [condsPieces] using ho
  | c :: cs, b0, b, b', ps, h, hn, ho => by
    simp only [pushConds, bind_ok] at h
    obtain ⟨b1, h1, h2⟩ := h
    simp only [condsPieces] at hn ⊢
    have n1 := noNul_append.mp hn
    have := out_conds hR hs cs b0 b1 b' _ h2 n1.2
      ((ho.sep hs).trans (out_cond hR c _ _ h1 (noNul_cons.mp n1.1).2))
    simpa using this
theorem out_source {R : Rust} (hR : R.Ok) : ∀ (t : Source) (b b' : Builder), pushSource R b t = .ok b' →
    NoNul (sourcePieces R t) → Out false b b' (sourcePieces R t)
  | .table t al, b, b', h, hn => by
    simp only [pushSource, Res.ok.injEq] at h; subst h
    simp only [sourcePieces] at hn ⊢
    have n1 := noNul_cons.mp hn
    exact out_as (Out.identifier b n1.1) (noNul_cons.mp n1.2).2
  | .union [] al, b, b', h, hn => by
    simp only [pushSource, Res.bind, Res.ok.injEq] at h; subst h
    simp only [sourcePieces] at hn ⊢
    have n1 := (noNul_append.mp hn).2
    exact (out_paren b).weaken.closeAs (noNul_cons.mp (noNul_cons.mp n1).2).2
  | .union (q :: qs) al, b, b', h, hn => by
    simp only [pushSource, bind_ok, Res.ok.injEq] at h
    obtain ⟨b2, ⟨b1, h1, h2⟩, rfl⟩ := h
    simp only [sourcePieces] at hn ⊢
    have n1 := noNul_append.mp hn
    have n2 := noNul_append.mp (noNul_cons.mp n1.1).2
    have := out_queries hR qs b _ _ _ h2 n2.2 ((out_paren b).trans (out_query hR q _ _ h1 n2.1))
    have := this.closeAs (noNul_cons.mp (noNul_cons.mp n1.2).2).2
    simpa using this
  | .subquery q, b, b', h, hn => by
    simp only [pushSource, bind_ok, Res.ok.injEq] at h
    obtain ⟨b1, h1, rfl⟩ := h
    simp only [sourcePieces] at hn ⊢
    have n1 := (noNul_cons.mp (noNul_append.mp hn).1).2
    exact ((out_paren b).trans (out_query hR q _ _ h1 n1)).close
  | .values v al, b, b', h, hn => by
    simp only [pushSource, bind_ok, Res.ok.injEq] at h
    obtain ⟨b1, h1, rfl⟩ := h
    simp only [sourcePieces] at hn ⊢
    have n1 := noNul_append.mp hn
    have := ((out_paren b).trans (out_values hR h1 (noNul_cons.mp n1.1).2)).closeAs
      (noNul_cons.mp (noNul_cons.mp n1.2).2).2
    simpa using this
theorem out_queries {R : Rust} (hR : R.Ok) :
    ∀ (qs : List Query) (b0 b b' : Builder) (ps : List Piece), pushQueries R b qs = .ok b' →
      NoNul (queriesPieces R qs) → Out false b0 b ps → Out false b0 b' (ps ++ queriesPieces R qs)
  | [], b0, b, b', ps, h, _, ho => by
    simp only [pushQueries, Res.ok.injEq] at h; subst h
    simpa [queriesPieces] using ho
  | q :: qs, b0, b, b', ps, h, hn, ho => by
    simp only [pushQueries, bind_ok] at h
    obtain ⟨b1, h1, h2⟩ := h
    simp only [queriesPieces] at hn ⊢
    have n1 := noNul_append.mp hn
    have h3 := ho.part (t := " UNION ".toList) (k' := true) (toks := [.word "UNION".toList])
      ⟨' ', _, rfl, .inl rfl⟩ (fun _ _ => rfl) rfl
    have := out_queries hR qs b0 b1 b' _ h2 n1.2
      (h3.trans (out_query hR q _ _ h1 (noNul_cons.mp n1.1).2))
    simpa [W] using this
theorem out_sources {R : Rust} (hR : R.Ok) :
    ∀ (ts : List Source) (b0 b b' : Builder) (ps : List Piece), pushSources R b ts = .ok b' →
      NoNul (sourcesPieces R ts) → Out false b0 b ps → Out false b0 b' (ps ++ sourcesPieces R ts)
  | [], b0, b, b', ps, h, _, ho => by
    simp only [pushSources, Res.ok.injEq] at h; subst h
    simpa [sourcesPieces] using ho
  | t :: ts, b0, b, b', ps, h, hn, ho => by
    simp only [pushSources, bind_ok] at h
    obtain ⟨b1, h1, h2⟩ := h
    simp only [sourcesPieces] at hn ⊢
    have n1 := noNul_append.mp hn
    have := out_sources hR ts b0 b1 b' _ h2 n1.2
      ((ho.part comma_parts comma_reads rfl).trans (out_source hR t _ _ h1 (noNul_cons.mp n1.1).2))
    simpa [P] using this
theorem out_from {R : Rust} (hR : R.Ok) :
    ∀ (ts : List Source) (b0 b b' : Builder) (ps : List Piece), pushFrom R b ts = .ok b' →
      NoNul (fromPieces R ts) → Out false b0 b ps → Out false b0 b' (ps ++ fromPieces R ts)
  | [], b0, b, b', ps, h, _, ho => by
    simp only [pushFrom, Res.ok.injEq] at h; subst h
    simpa [fromPieces] using ho
  | t :: ts, b0, b, b', ps, h, hn, ho => by
    simp only [pushFrom, bind_ok] at h
    obtain ⟨b1, h1, h2⟩ := h
    simp only [fromPieces] at hn ⊢
    have n1 := noNul_append.mp hn
    have h3 := ho.part (t := " FROM ".toList) (k' := true) (toks := [.word "FROM".toList])
      ⟨' ', _, rfl, .inl rfl⟩ (fun _ _ => rfl) rfl
    have := out_sources hR ts b0 b1 b' _ h2 n1.2
      (h3.trans (out_source hR t _ _ h1 (noNul_cons.mp n1.1).2))
    simpa [W] using this
theorem out_where {R : Rust} (hR : R.Ok) :
    ∀ (cs : List Cond) (b0 b b' : Builder) (ps : List Piece), pushWhere R b cs = .ok b' →
      NoNul (wherePieces R cs) → Out false b0 b ps → Out false b0 b' (ps ++ wherePieces R cs)
  | [], b0, b, b', ps, h, _, ho => by
    simp only [pushWhere, Res.ok.injEq] at h; subst h
    simpa [wherePieces] using ho
  | c :: cs, b0, b, b', ps, h, hn, ho => by
    simp only [pushWhere, bind_ok] at h
    obtain ⟨b1, h1, h2⟩ := h
    simp only [wherePieces] at hn ⊢
    have n1 := noNul_append.mp hn
    have h3 := ho.part (t := " WHERE ".toList) (k' := true) (toks := [.word "WHERE".toList])
      ⟨' ', _, rfl, .inl rfl⟩ (fun _ _ => rfl) rfl
    have := out_conds hR sep_and cs b0 b1 b' _ h2 n1.2
      (h3.trans (out_cond hR c _ _ h1 (noNul_cons.mp n1.1).2))
    simpa [W] using this
theorem out_query {R : Rust} (hR : R.Ok) : ∀ (q : Query) (b b' : Builder), pushQuery R b q = .ok b' →
    NoNul (queryPieces R q) → Out false b b' (queryPieces R q)
  | .mk distinct proj tables wh group order limit, b, b', h, hn => by
    simp only [pushQuery, bind_ok] at h
    obtain ⟨b1, h1, b2, h2, b3, h3, b4, h4, b5, h5, h6⟩ := h
    simp only [queryPieces] at hn ⊢
    have n5 := (noNul_append.mp hn).1
    have n4 := noNul_append.mp n5
    have n3 := noNul_append.mp n4.1
    have n2 := noNul_append.mp n3.1
    have n1 := noNul_append.mp n2.1
    have n0 := noNul_append.mp n1.1
    have o0 : Out true b (b.push (if distinct then "SELECT DISTINCT ".toList else "SELECT ".toList))
        (W "SELECT" :: if distinct then [W "DISTINCT"] else []) := by
      cases distinct
      · exact Out.fix b (toks := [.word "SELECT".toList]) (fun _ _ => rfl) rfl
      · exact Out.fix b (toks := [.word "SELECT".toList, .word "DISTINCT".toList]) (fun _ _ => rfl) rfl
    have o1 := o0.trans (out_projection hR h1 n0.2)
    have o2 := out_from hR tables b _ _ _ h2 n1.2 o1
    have o3 := out_where hR wh b _ _ _ h3 n2.2 o2
    exact out_limit h6 (out_orders h5 n4.2 (out_groups h4 n3.2 o3))
end

end SqlText
end Mentat
