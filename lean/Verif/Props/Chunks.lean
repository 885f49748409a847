import Verif.Model.Chunks
import Verif.Proofs.Entities
/- C63: bulk statements cover all rows within the variable limit. -/
namespace Mentat

theorem chunksOf_flatten {α : Type} {n : Nat} (hn : 0 < n) (k : Nat) (l : List α) (h : l.length ≤ k) :
    (chunksOf n k l).flatten = l := by
  induction k generalizing l with
  | zero => cases l with
    | nil => rfl
    | cons x r => simp at h
  | succ k ih =>
    cases l with
    | nil => rfl
    | cons x r =>
      simp only [chunksOf, List.flatten_cons]
      rw [ih]
      · exact List.take_append_drop n (x :: r)
      · simp only [List.length_drop]; simp only [List.length_cons] at h ⊢; omega

theorem chunksOf_length {α : Type} {n : Nat} (hn : 0 < n) (k : Nat) (l : List α) :
    ∀ c ∈ chunksOf n k l, 0 < c.length ∧ c.length ≤ n := by
  induction k generalizing l with
  | zero => intro c hc; cases hc
  | succ k ih =>
    cases l with
    | nil => intro c hc; cases hc
    | cons x r =>
      intro c hc
      simp only [chunksOf] at hc
      rcases List.mem_cons.1 hc with rfl | hc
      · simp only [List.length_take, List.length_cons]; omega
      · exact ih _ c hc

/-- C63: the outcome for every number of rows, of bindings and every limit.  Without a panic the
statements cover the rows once each, in order, none is empty and none exceeds the limit. -/
theorem C63_statements {α : Type} {b m : Nat} {rows : List α} {ss : List (List α)}
    (h : statements b m rows = .ok ss) :
    ss.flatten = rows ∧ (∀ s ∈ ss, 0 < s.length ∧ b * s.length < m) := by
  unfold statements chunks at h
  split at h
  · cases h
  · rename_i hn
    simp only [Res.bind] at h
    split at h
    · rename_i ha
      cases h
      refine ⟨chunksOf_flatten (Nat.pos_of_ne_zero hn) _ _ (Nat.le_refl _), ?_⟩
      intro s hs
      rw [List.all_eq_true] at ha
      exact ⟨(chunksOf_length (Nat.pos_of_ne_zero hn) _ _ s hs).1, of_decide_eq_true (ha s hs)⟩
    · cases h

/-- C63: exactly when it panics: the limit is too small for a row, or the bindings of a row divide
it and there are enough rows to fill a statement (the code asserts `<` where `≤` is meant). -/
theorem C63_panics_iff {α : Type} {b m : Nat} (hb : 0 < b) (rows : List α) :
    statements b m rows = .panic ↔ m < b ∨ (b ∣ m ∧ m / b ≤ rows.length) := by
  unfold statements chunks
  by_cases hlt : m < b
  · rw [Nat.div_eq_of_lt hlt]; simp [hlt, Res.bind]
  · have hpos : 0 < m / b := Nat.div_pos (by omega) hb
    rw [if_neg (by omega)]
    simp only [Res.bind]
    have hmul : b * (m / b) ≤ m := Nat.mul_div_le m b
    constructor
    · intro h
      right
      split at h
      · cases h
      · rename_i ha
        rw [List.all_eq_true] at ha
        simp only [decide_eq_true_eq] at ha
        obtain ⟨c, hc, hge⟩ : ∃ c ∈ chunksOf (m / b) rows.length rows, ¬ b * c.length < m := by
          apply Classical.byContradiction
          intro hne
          exact ha fun c hc => Classical.byContradiction fun h' => hne ⟨c, hc, h'⟩
        have hlen := (chunksOf_length hpos _ _ c hc).2
        have h1 : b * c.length ≤ b * (m / b) := Nat.mul_le_mul_left b hlen
        have hm : b * (m / b) = m := by omega
        refine ⟨⟨m / b, hm.symm⟩, ?_⟩
        have hcl : c.length = m / b := by
          have : b * c.length = b * (m / b) := by omega
          exact Nat.eq_of_mul_eq_mul_left hb this
        rw [← hcl]
        have hf := chunksOf_flatten hpos rows.length rows (Nat.le_refl _)
        have : c.length ≤ (chunksOf (m / b) rows.length rows).flatten.length := by
          exact (List.sublist_flatten_of_mem hc).length_le
        rw [hf] at this; exact this
    · rintro (h | ⟨hd, hl⟩)
      · exact absurd h hlt
      · rw [if_neg]
        rw [List.all_eq_true]
        intro ha
        cases rows with
        | nil => simp only [List.length_nil] at hl; omega
        | cons x r =>
          have := ha ((x :: r).take (m / b)) (by simp [chunksOf])
          simp only [decide_eq_true_eq, List.length_take] at this
          rw [Nat.min_eq_left hl, Nat.mul_div_cancel' hd] at this
          omega

/-- The full C63 fails: with the limit 32766, which is SQLite's default since version 3.32, a transaction
of 5461 or more rows panics. -/
theorem C63_fails {α : Type} (rows : List α) (h : 5461 ≤ rows.length) : statements 6 32766 rows = .panic := by
  rw [C63_panics_iff (by omega)]
  exact Or.inr ⟨by decide, h⟩

/-- With the older default, 999, there is no panic for 6 or 4 bindings. -/
theorem C63_example {α : Type} (rows : List α) :
    (∃ ss, statements 6 999 rows = .ok ss) ∧ ∃ ss, statements 4 999 rows = .ok ss := by
  have aux : ∀ b, 0 < b → ¬ (999 < b ∨ b ∣ 999) → ∃ ss, statements b 999 rows = .ok ss := by
    intro b hb hn
    have h1 : statements b 999 rows ≠ .panic := by
      rw [Ne, C63_panics_iff hb]
      rintro (h | h)
      · exact hn (Or.inl h)
      · exact hn (Or.inr h.1)
    cases hs : statements b 999 rows with
    | ok ss => exact ⟨ss, rfl⟩
    | panic => exact absurd hs h1
    | err e =>
      unfold statements chunks at hs
      split at hs
      · cases hs
      · simp only [Res.bind] at hs
        split at hs <;> cases hs
  exact ⟨aux 6 (by decide) (by decide), aux 4 (by decide) (by decide)⟩

/-! ### The text -/

theorem count_intercalate (c : Char) (sep : Text) (hs : sep.count c = 0) (n : Nat) (x : Text) :
    (List.intercalate sep (List.replicate n x)).count c = n * x.count c := by
  induction n with
  | zero => simp [List.intercalate]
  | succ n ih =>
    cases n with
    | zero => simp [List.intercalate]
    | succ n =>
      have : List.intercalate sep (List.replicate (n + 1 + 1) x) =
          x ++ sep ++ List.intercalate sep (List.replicate (n + 1) x) := by
        simp [List.intercalate, List.replicate_succ]
      rw [this, List.count_append, List.count_append, hs, ih]
      rw [Nat.succ_mul (n + 1)]; omega

/-- C63: the text has as many variables as there are values to bind. -/
theorem C63_variables {k n : Nat} {t : Text} (h : repeatValues k n = .ok t) : t.count '?' = k * n := by
  unfold repeatValues at h
  split at h
  · cases h
  · cases h
    rw [count_intercalate _ _ (by decide)]
    rw [List.count_append, List.count_cons, count_intercalate _ _ (by decide)]
    simp [Nat.mul_comm]

/-! ### `resolve_avs` -/

theorem collectAvs_spec {avs : List (Entid × TypedValue)} (l : List (Nat × Entid))
    (hl : ∀ p ∈ l, p.1 - 2000 < avs.length) (m : AMap (Entid × TypedValue) Entid) :
    ∃ m', collectAvs avs l m = .ok m' ∧
      ∀ av, (∀ e, AMap.get m' av = some e → (∃ p ∈ l, avs[p.1 - 2000]? = some av ∧ p.2 = e) ∨ AMap.get m av = some e) ∧
        (AMap.get m' av = none → AMap.get m av = none ∧ ∀ p ∈ l, avs[p.1 - 2000]? ≠ some av) := by
  induction l generalizing m with
  | nil => exact ⟨m, rfl, fun av => ⟨fun e h => Or.inr h, fun h => ⟨h, by simp⟩⟩⟩
  | cons p r ih =>
    obtain ⟨i, e0⟩ := p
    have hi := hl (i, e0) (by simp)
    simp only at hi
    obtain ⟨m', h1, h2⟩ := ih (fun p hp => hl p (List.mem_cons_of_mem _ hp)) (AMap.insert m avs[i - 2000] e0)
    refine ⟨m', ?_, ?_⟩
    · simp only [collectAvs]
      rw [List.getElem?_eq_getElem hi]
      exact h1
    · intro av
      obtain ⟨h3, h4⟩ := h2 av
      constructor
      · intro e he
        rcases h3 e he with ⟨p, hp, h⟩ | h
        · exact Or.inl ⟨p, List.mem_cons_of_mem _ hp, h⟩
        · by_cases hk : av = avs[i - 2000]
          · subst hk
            rw [AMap.get_insert_self] at h
            cases h
            exact Or.inl ⟨(i, e0), by simp, by simp [List.getElem?_eq_getElem hi], rfl⟩
          · rw [AMap.get_insert_ne _ _ (Ne.symm hk)] at h
            exact Or.inr h
      · intro hn
        obtain ⟨h5, h6⟩ := h4 hn
        have hk : av ≠ avs[i - 2000] := by
          rintro rfl
          rw [AMap.get_insert_self] at h5; cases h5
        rw [AMap.get_insert_ne _ _ (Ne.symm hk)] at h5
        refine ⟨h5, ?_⟩
        intro p hp
        rcases List.mem_cons.1 hp with rfl | hp
        · simp only [List.getElem?_eq_getElem hi]
          intro he; exact hk (Option.some.inj he).symm
        · exact h6 p hp

/-- C63 for `resolve_avs`: whatever the limit and the number of pairs, unless it panics, it finds for
each of the pairs an entity that the AVET index has under it, if there is one, and nothing for other
pairs: the splitting does not show. -/
theorem C63_resolve {m : Nat} {rows : List Row} {avs : List (Entid × TypedValue)} {r}
    (h : resolveAvs m rows avs = .ok r) (a : Entid) (v : TypedValue) :
    (∀ e, AMap.get r (a, v) = some e → (a, v) ∈ avs ∧ ∃ x ∈ rows, x.avet = true ∧ x.e = e ∧ x.a = a ∧ x.v = v) ∧
    (AMap.get r (a, v) = none ↔ (a, v) ∉ avs ∨ ∀ x ∈ rows, x.avet = true → x.a = a → x.v ≠ v) := by
  unfold resolveAvs at h
  cases hs : statements 4 m (avs.zipIdx.map fun (x, i) => (i + 2000, x.1, x.2)) with
  | err e => rw [hs] at h; cases h
  | panic => rw [hs] at h; cases h
  | ok cs =>
    rw [hs] at h
    simp only [Res.bind] at h
    have hflat := (C63_statements hs).1
    have hmem : ∀ p : Nat × Entid, p ∈ cs.flatMap (joinAvs rows) ↔
        ∃ i av, avs[i]? = some av ∧ p.1 = i + 2000 ∧ ∃ x ∈ rows, x.avet = true ∧ x.a = av.1 ∧ x.v = av.2 ∧ x.e = p.2 := by
      intro p
      rw [List.mem_flatMap]
      constructor
      · rintro ⟨c, hc, hp⟩
        unfold joinAvs at hp
        rw [List.mem_flatMap] at hp
        obtain ⟨⟨i, a', v'⟩, hb, hp⟩ := hp
        have : (i, a', v') ∈ cs.flatten := List.mem_flatten.2 ⟨c, hc, hb⟩
        rw [hflat, List.mem_map] at this
        obtain ⟨⟨av, j⟩, hj, he⟩ := this
        rw [List.mem_zipIdx_iff_getElem?] at hj
        simp only [Prod.mk.injEq] at he
        obtain ⟨rfl, rfl, rfl⟩ := he
        obtain ⟨x, hx, rfl⟩ := List.mem_map.1 hp
        obtain ⟨hx, hcond⟩ := List.mem_filter.1 hx
        simp only [Bool.and_eq_true, decide_eq_true_eq] at hcond
        exact ⟨j, av, hj, rfl, x, hx, hcond.1, hcond.2.1, hcond.2.2, rfl⟩
      · rintro ⟨i, av, hi, hp1, x, hx, h1, h2, h3, h4⟩
        have : (i + 2000, av.1, av.2) ∈ cs.flatten := by
          rw [hflat, List.mem_map]
          exact ⟨(av, i), by rw [List.mem_zipIdx_iff_getElem?]; exact hi, rfl⟩
        obtain ⟨c, hc, hb⟩ := List.mem_flatten.1 this
        refine ⟨c, hc, ?_⟩
        unfold joinAvs
        rw [List.mem_flatMap]
        refine ⟨_, hb, List.mem_map.2 ⟨x, List.mem_filter.2 ⟨hx, by simp [h1, h2, h3]⟩, ?_⟩⟩
        rw [← hp1, h4]
    obtain ⟨m', h1, h2⟩ := collectAvs_spec (avs := avs) (cs.flatMap (joinAvs rows)) (by
      intro p hp
      obtain ⟨i, av, hi, hp, -⟩ := (hmem p).1 hp
      have := (List.getElem?_eq_some_iff.1 hi).1
      omega) []
    rw [h1] at h
    obtain rfl : m' = r := Res.ok.inj h
    obtain ⟨h3, h4⟩ := h2 (a, v)
    have key : ∀ e, AMap.get m' (a, v) = some e →
        (a, v) ∈ avs ∧ ∃ x ∈ rows, x.avet = true ∧ x.e = e ∧ x.a = a ∧ x.v = v := by
      intro e he
      rcases h3 e he with ⟨p, hp, hav, rfl⟩ | h
      · obtain ⟨i, av, hi, hpi, x, hx, k1, k2, k3, k4⟩ := (hmem p).1 hp
        rw [hpi, Nat.add_sub_cancel, hi] at hav
        cases hav
        exact ⟨List.mem_of_getElem? hi, x, hx, k1, k4, k2, k3⟩
      · simp [AMap.get] at h
    refine ⟨key, ?_, ?_⟩
    · intro hn
      by_cases hin : (a, v) ∈ avs
      · right
        intro x hx k1 k2 k3
        obtain ⟨i, hi⟩ := List.mem_iff_getElem?.1 hin
        refine (h4 hn).2 (i + 2000, x.e) ((hmem _).2 ⟨i, (a, v), hi, rfl, x, hx, k1, k2, k3, rfl⟩) ?_
        rw [Nat.add_sub_cancel]; exact hi
      · exact Or.inl hin
    · intro hn
      cases hg : AMap.get m' (a, v) with
      | none => rfl
      | some e =>
        obtain ⟨k1, x, hx, k2, -, k3, k4⟩ := key e hg
        rcases hn with h | h
        · exact absurd k1 h
        · exact absurd k4 (h x hx k2 k3)

/-! ### Full-text rows -/

theorem numberStrings_spec {α : Type} [DecidableEq α] (l seen : List α) (hs : seen.Nodup) :
    (numberStrings l seen).2 = seen ++ (numberStrings l seen).1 ∧ (numberStrings l seen).2.Nodup ∧
    ∀ s, s ∈ (numberStrings l seen).2 ↔ s ∈ seen ∨ s ∈ l := by
  induction l generalizing seen with
  | nil => exact ⟨by simp [numberStrings], hs, by simp [numberStrings]⟩
  | cons x r ih =>
    simp only [numberStrings]
    by_cases hx : x ∈ seen
    · rw [if_pos hx]
      obtain ⟨h1, h2, h3⟩ := ih seen hs
      refine ⟨h1, h2, ?_⟩
      intro s
      rw [h3, List.mem_cons]
      constructor
      · rintro (h | h)
        · exact Or.inl h
        · exact Or.inr (Or.inr h)
      · rintro (h | rfl | h)
        · exact Or.inl h
        · exact Or.inl hx
        · exact Or.inr h
    · rw [if_neg hx]
      have hn : (seen ++ [x]).Nodup := by
        rw [List.nodup_append]
        refine ⟨hs, by simp, ?_⟩
        intro a ha b hb
        rw [List.mem_singleton.1 hb]
        rintro rfl; exact hx ha
      obtain ⟨h1, h2, h3⟩ := ih (seen ++ [x]) hn
      refine ⟨?_, h2, ?_⟩
      · simp only [h1, List.append_assoc, List.singleton_append]
      · intro s
        simp only [h3, List.mem_append, List.mem_cons, List.not_mem_nil, or_false]
        constructor
        · rintro ((h | h) | h)
          · exact Or.inl h
          · exact Or.inr (Or.inl h)
          · exact Or.inr (Or.inr h)
        · rintro (h | h | h)
          · exact Or.inl (Or.inl h)
          · exact Or.inl (Or.inr h)
          · exact Or.inr h

theorem ftsStatements_ok {α : Type} [DecidableEq α] {m : Nat} {cs : List (List α)} {seen : List α} {out}
    (hs : seen.Nodup) (h : ftsStatements m cs seen = .ok out) :
    out.map (·.2) = cs ∧ (seen ++ out.flatMap (·.1)).Nodup ∧
    (∀ s, s ∈ seen ++ out.flatMap (·.1) ↔ s ∈ seen ∨ s ∈ cs.flatten) ∧
    (∀ p ∈ out, 6 * p.2.length < m ∧ p.1 ≠ []) ∧
    (∀ i, ∀ s ∈ ((out.take (i + 1)).flatMap (·.2)), s ∈ seen ∨ s ∈ (out.take (i + 1)).flatMap (·.1)) := by
  induction cs generalizing seen out with
  | nil => cases h; simp [hs]
  | cons c r ih =>
    simp only [ftsStatements] at h
    obtain ⟨hn1, hn2, hn3⟩ := numberStrings_spec c seen hs
    rw [Res.bind_ok_iff] at h
    obtain ⟨t, hrep, h⟩ := h
    split at h
    · rename_i hlt
      rw [Res.bind_ok_iff] at h
      obtain ⟨rest, hrest, h⟩ := h
      cases h
      obtain ⟨i1, i2, i3, i4, i5⟩ := ih hn2 hrest
      rw [hn1, List.append_assoc] at i2
      refine ⟨by simp [i1], by simpa using i2, ?_, ?_, ?_⟩
      · intro s
        have := i3 s
        rw [hn1] at this
        simp only [List.flatMap_cons, List.flatten_cons, List.mem_append] at this ⊢
        have h3 := hn3 s
        rw [hn1, List.mem_append] at h3
        constructor
        · intro h
          have h' : (s ∈ seen ∨ s ∈ (numberStrings c seen).1) ∨ s ∈ rest.flatMap (·.1) := by
            rcases h with h | h | h
            · exact Or.inl (Or.inl h)
            · exact Or.inl (Or.inr h)
            · exact Or.inr h
          rcases this.1 h' with h | h
          · rcases h3.1 h with h | h
            · exact Or.inl h
            · exact Or.inr (Or.inl h)
          · exact Or.inr (Or.inr h)
        · intro h
          have h' : (s ∈ seen ∨ s ∈ (numberStrings c seen).1) ∨ s ∈ r.flatten := by
            rcases h with h | h | h
            · exact Or.inl (h3.2 (Or.inl h))
            · exact Or.inl (h3.2 (Or.inr h))
            · exact Or.inr h
          rcases this.2 h' with (h | h) | h
          · exact Or.inl h
          · exact Or.inr (Or.inl h)
          · exact Or.inr (Or.inr h)
      · intro p hp
        rcases List.mem_cons.1 hp with rfl | hp
        · refine ⟨hlt, ?_⟩
          intro he
          rw [he] at hrep
          simp [repeatValues] at hrep
        · exact i4 p hp
      · intro i s hsm
        simp only [List.take_succ_cons, List.flatMap_cons, List.mem_append] at hsm ⊢
        have hcase : s ∈ (numberStrings c seen).2 ∨ s ∈ (rest.take i).flatMap (·.1) := by
          rcases hsm with h | h
          · exact Or.inl ((hn3 s).2 (Or.inr h))
          · cases i with
            | zero => simp at h
            | succ i => exact i5 i s h
        rw [hn1, List.mem_append] at hcase
        rcases hcase with (h | h) | h
        · exact Or.inl h
        · exact Or.inr (Or.inl h)
        · exact Or.inr (Or.inr h)
    · cases h

/-- C63 for full-text rows, in part: unless it panics, the statements cover the rows once each and in
order, each distinct string is inserted exactly once, and before (or in) the statement that looks it
up.  Missing: it can panic for another reason, `C63_fails_fts`. -/
theorem C63_fts_partial {α : Type} [DecidableEq α] {m : Nat} {rows : List α} {out}
    (h : insertFts m rows = .ok out) :
    (out.map (·.2)).flatten = rows ∧ (out.flatMap (·.1)).Nodup ∧ (∀ s, s ∈ out.flatMap (·.1) ↔ s ∈ rows) ∧
    (∀ p ∈ out, 6 * p.2.length < m) ∧
    ∀ i, ∀ s ∈ (out.take (i + 1)).flatMap (·.2), s ∈ (out.take (i + 1)).flatMap (·.1) := by
  unfold insertFts chunks at h
  split at h
  · cases h
  · simp only [Res.bind] at h
    obtain ⟨h1, h2, h3, h4, h5⟩ := ftsStatements_ok (by simp) h
    have hf := chunksOf_flatten (n := m / 6) (by omega) rows.length rows (Nat.le_refl _)
    refine ⟨by rw [h1, hf], by simpa using h2, ?_, fun p hp => (h4 p hp).1, ?_⟩
    · intro s; have := h3 s; rw [hf] at this; simpa using this
    · intro i s hs; have := h5 i s hs; simpa using this

/-- C63 fails for full-text rows: a statement whose strings all occurred in earlier statements has no
string to insert, and `repeat_values` asserts that there is one.  With the limit 999, 167 datoms with
the same full-text value panic. -/
theorem C63_fails_fts : insertFts 999 (List.replicate 167 'x') = .panic ∧
    ∃ ss, statements 6 999 (List.replicate 167 'x') = .ok ss :=
  ⟨by decide +kernel, (C63_example _).1⟩

end Mentat
