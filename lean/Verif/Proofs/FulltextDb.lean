import Verif.Proofs.Fulltext
import Verif.Proofs.Effect
/- Whole transactions on the tables as SQLite has them: for C81. -/
namespace Mentat

/-! ### Outcomes -/

/-- The two outcomes are the same error, or `R` relates them; or the first is a failed assertion, and so
is the second unless `P`. -/
inductive Refines {α β : Type} (P : Prop) (R : α → β → Prop) : Res α → Res β → Prop
  | panic {y} : (P ∨ y = .panic) → Refines P R .panic y
  | err (e) : Refines P R (.err e) (.err e)
  | ok {a b} : R a b → Refines P R (.ok a) (.ok b)

theorem Refines.bind {α β γ δ : Type} {P : Prop} {R : α → β → Prop} {S : γ → δ → Prop} {x : Res α} {y : Res β} {f : α → Res γ}
    {g : β → Res δ} (h : Refines P R x y) (hf : ∀ a b, R a b → Refines P S (f a) (g b)) :
    Refines P S (x >>= f) (y >>= g) := by
  cases h with
  | panic h => exact .panic (h.imp_right fun e => by subst e; rfl)
  | err e => exact .err e
  | ok h => exact hf _ _ h

theorem Refines.same {α γ δ : Type} {P : Prop} {S : γ → δ → Prop} {x : Res α} {f : α → Res γ} {g : α → Res δ}
    (hf : ∀ a, x = .ok a → Refines P S (f a) (g a)) : Refines P S (x >>= f) (x >>= g) := by
  cases x with
  | panic => exact .panic (.inr rfl)
  | err e => exact .err e
  | ok a => exact hf a rfl

theorem Refines.of_ok {α β : Type} {P : Prop} {R : α → β → Prop} {x : Res α} {y : Res β} {a : α} (h : Refines P R x y)
    (e : x = .ok a) : ∃ b, y = .ok b ∧ R a b := by
  subst e
  cases h with
  | ok h => exact ⟨_, rfl, h⟩

theorem Refines.or_panic {α β : Type} {P : Prop} {R : α → β → Prop} {x : Res α} {y : Res β} {b : β} (h : Refines P R x y)
    (e : y = .ok b) : (P ∧ x = .panic) ∨ ∃ a, x = .ok a ∧ R a b := by
  subst e
  cases h with
  | panic h => exact .inl ⟨h.resolve_right (by simp), rfl⟩
  | ok h => exact .inr ⟨_, rfl, h⟩

/-! ### The views -/

theorem flatMap_single {α β : Type} {f : α → List β} {g : α → β} {l : List α} (h : ∀ x ∈ l, f x = [g x]) :
    l.flatMap f = l.map g := by
  induction l with
  | nil => rfl
  | cons x l ih =>
    rw [List.flatMap_cons, h x List.mem_cons_self, ih fun y hy => h y (List.mem_cons_of_mem _ hy)]
    rfl

theorem filter_unique {t : List FtRow} (ht : (t.map (·.rowid)).Nodup) {r : FtRow} (hr : r ∈ t) :
    (t.filter fun x => decide (x.rowid = r.rowid)) = [r] := by
  induction t with
  | nil => simp at hr
  | cons y t ih =>
    simp only [List.map_cons, List.nodup_cons] at ht
    rcases List.mem_cons.mp hr with e | hr'
    · subst e
      simp only [List.filter_cons, decide_true, if_true]
      congr 1
      rw [List.filter_eq_nil_iff]
      intro x hx
      simp only [decide_eq_true_eq]
      intro e
      exact ht.1 (List.mem_map.mpr ⟨x, hx, e⟩)
    · have hne : ¬ y.rowid = r.rowid := fun e => ht.1 (List.mem_map.mpr ⟨r, hr', e.symm⟩)
      simp only [List.filter_cons, hne, decide_false, Bool.false_eq_true, if_false]
      exact ih ht.2 hr'

/-- `fulltext_datoms` shows the rows of fulltext attributes, each once. -/
theorem fulltextDatoms_eq {F d} (h : DiskOk F d) :
    d.fulltextDatoms = (d.rows.filter (·.ft)).map (absRow d.texts) := by
  unfold Disk.fulltextDatoms
  have key : ∀ r ∈ d.rows, ((d.texts.filter fun t => r.ft && decide (r.v = .rowid t.rowid)).map fun t =>
      ({ e := r.e, a := r.a, v := .string t.text, tx := r.tx, avet := r.avet, uniq := r.uniq } : Row)) =
      if r.ft then [absRow d.texts r] else [] := by
    intro r hr
    obtain ⟨hft, hc⟩ := h.rows r hr
    cases hb : r.ft with
    | false => simp
    | true =>
      rw [hb] at hft
      rw [← hft] at hc
      cases hv : r.v with
      | val v => rw [hv] at hc; cases hc
      | rowid n =>
        rw [hv] at hc
        obtain ⟨-, x, hx, rfl⟩ := hc
        have : (d.texts.filter fun t => true && decide (Cell.rowid x.rowid = .rowid t.rowid)) = [x] := by
          rw [← filter_unique h.table.ids hx]
          apply List.filter_congr
          intro y _
          simp only [Bool.true_and, Cell.rowid.injEq]
          exact decide_eq_decide.mpr eq_comm
        rw [this]
        simp only [List.map_cons, List.map_nil, if_true, absRow, hv, absCell, ftText_of_mem h.table hx]
  rw [List.flatMap_congr key]
  clear key
  induction d.rows with
  | nil => rfl
  | cons r l ih =>
    rw [List.flatMap_cons, ih, List.filter_cons]
    split <;> simp

theorem plainDatoms_eq {F d} (h : DiskOk F d) :
    (d.rows.filter fun r => !r.ft).filterMap DiskRow.plain = (d.rows.filter fun r => !r.ft).map (absRow d.texts) := by
  rw [← List.filterMap_eq_map]
  apply List.filterMap_congr
  intro r hr
  obtain ⟨hr, hb⟩ := List.mem_filter.mp hr
  obtain ⟨hft, hc⟩ := h.rows r hr
  simp only [Bool.not_eq_true'] at hb
  rw [hb] at hft
  rw [← hft] at hc
  cases hv : r.v with
  | val v => simp only [Function.comp, DiskRow.plain, absRow, hv, absCell]
  | rowid n => rw [hv] at hc; cases hc.1

theorem allDatoms_eq {F d} (h : DiskOk F d) : d.allDatoms =
    ((d.rows.filter fun r => !r.ft) ++ d.rows.filter (·.ft)).map (absRow d.texts) := by
  unfold Disk.allDatoms
  rw [List.map_append, ← plainDatoms_eq h, ← fulltextDatoms_eq h]

/-- The view shows every datom, once. -/
theorem allDatoms_perm {F d} (h : DiskOk F d) : d.allDatoms.Perm d.shown.rows := by
  rw [allDatoms_eq h]
  unfold Disk.shown
  apply List.Perm.map
  have := List.filter_append_perm (fun r : DiskRow => !r.ft) d.rows
  simpa only [Bool.not_not] using this

theorem find_append_filter {α : Type} {p q : α → Bool} : ∀ {l : List α}, (∀ x ∈ l, p x = true → q x = false) →
    l.find? p = (l.filter fun x => !q x).find? p
  | [], _ => rfl
  | x :: l, h => by
    have ih := find_append_filter (p := p) (q := q) (l := l) fun y hy => h y (List.mem_cons_of_mem _ hy)
    rw [List.filter_cons, List.find?_cons]
    cases hp : p x with
    | true => simp [h x List.mem_cons_self hp, hp]
    | false =>
      cases hq : q x with
      | true => simp [ih]
      | false => simp [hp, ih]

/-- Looking up an entity by attribute and value through the view. -/
theorem lookup_shown {F d} (h : DiskOk F d) (a : Entid) (v : TypedValue) :
    ({ rows := d.allDatoms } : Store).lookupAV a v = d.shown.lookupAV a v := by
  unfold Store.lookupAV
  congr 1
  show d.allDatoms.find? _ = d.shown.rows.find? _
  rw [allDatoms_eq h]
  unfold Disk.shown
  simp only
  rw [List.find?_map, List.find?_map]
  congr 1
  rw [List.find?_append]
  cases hF : F a with
  | false =>
    have h1 : (d.rows.filter (·.ft)).find? ((fun r : Row => r.avet && decide (r.a = a ∧ r.v = v)) ∘ absRow d.texts)
        = none := by
      rw [List.find?_eq_none]
      intro r hr hp
      obtain ⟨hr, hb⟩ := List.mem_filter.mp hr
      simp only [Function.comp, Bool.and_eq_true, decide_eq_true_eq] at hp
      simp only [absRow] at hp
      have := (h.rows r hr).ft
      rw [hb, hp.2.1, hF] at this
      cases this
    rw [h1, Option.or_none]
    symm
    apply find_append_filter (q := fun r : DiskRow => r.ft)
    intro r hr hp
    simp only [Function.comp, Bool.and_eq_true, decide_eq_true_eq] at hp
    simp only [absRow] at hp
    rw [(h.rows r hr).ft, hp.2.1, hF]
  | true =>
    have h1 : (d.rows.filter fun r => !r.ft).find?
        ((fun r : Row => r.avet && decide (r.a = a ∧ r.v = v)) ∘ absRow d.texts) = none := by
      rw [List.find?_eq_none]
      intro r hr hp
      obtain ⟨hr, hb⟩ := List.mem_filter.mp hr
      simp only [Function.comp, Bool.and_eq_true, decide_eq_true_eq] at hp
      simp only [absRow] at hp
      have := (h.rows r hr).ft
      rw [hp.2.1, hF] at this
      rw [this] at hb
      cases hb
    rw [h1, Option.none_or]
    symm
    have := find_append_filter (p := (fun r : Row => r.avet && decide (r.a = a ∧ r.v = v)) ∘ absRow d.texts)
      (q := fun r : DiskRow => !r.ft) (l := d.rows) (by
        intro r hr hp
        simp only [Function.comp, Bool.and_eq_true, decide_eq_true_eq] at hp
        simp only [absRow] at hp
        rw [(h.rows r hr).ft, hp.2.1, hF]
        rfl)
    simpa only [Bool.not_not] using this

theorem resolveTempIds_lookup {s : Schema} {st st' : Store} (h : ∀ a v, st.lookupAV a v = st'.lookupAV a v)
    (user : Partition) (terms : List TTerm) (ids : List TempId) :
    resolveTempIds s st user terms ids = resolveTempIds s st' user terms ids := by
  have h1 : ∀ l m c, resolveTempIdAvs st l m c = resolveTempIdAvs st' l m c := by
    intro l
    induction l with
    | nil => intro m c; rfl
    | cons x l ih =>
      intro m c
      obtain ⟨t, a, v⟩ := x
      unfold resolveTempIdAvs
      rw [h]
      split
      · split <;> exact ih _ _
      · exact ih _ _
  have h2 : ∀ n g t, evolveLoop st n g t = evolveLoop st' n g t := by
    intro n
    induction n with
    | zero => intro g t; unfold evolveLoop; rfl
    | succ n ih =>
      intro g t
      unfold evolveLoop evolveStep
      simp only [h1, ih]
  unfold resolveTempIds evolve
  simp only [h2]

/-! ### Metadata -/

/-- Flags of the AVET and unique indices apart, the rows are the same. -/
def DiskRow.bare (r : DiskRow) : DiskRow := { r with avet := false, uniq := false }

theorem RowFt.bare {F t r r'} (h : RowFt F t r) (e : DiskRow.bare r' = DiskRow.bare r) : RowFt F t r' := by
  simp only [DiskRow.bare, DiskRow.mk.injEq] at e
  obtain ⟨-, e2, e3, -, -, e5, -⟩ := e
  exact ⟨by rw [e5, e2]; exact h.ft, by rw [e2, e3]; exact h.cell⟩

/-- Rows with the same shown rows, and valid. -/
def RowsShow (F : Entid → Bool) (t : List FtRow) (rows : List DiskRow) (rows' : List Row) : Prop :=
  (∀ r ∈ rows, RowFt F t r) ∧ rows.map (absRow t) = rows'

theorem alteration_abs {F t} (ht : FtOk t) {at_ e} {rows : List DiskRow} (h : ∀ r ∈ rows, RowFt F t r) (x : Alteration) :
    Refines False (RowsShow F t) (diskAlteration at_ e rows x) (applyAlteration at_ e (rows.map (absRow t)) x) := by
  cases x with
  | index =>
    refine .ok ⟨?_, ?_⟩
    · intro r hr
      obtain ⟨x, hx, rfl⟩ := List.mem_map.mp hr
      refine (h x hx).bare ?_
      split <;> rfl
    · rw [List.map_map, List.map_map]
      apply List.map_congr_left
      intro r _
      simp only [Function.comp]
      by_cases ha : r.a = e <;> simp [absRow, ha]
  | unique =>
    have h1 : ∀ r ∈ (rows.map fun r => if r.a = e then { r with uniq := at_.unique.isSome } else r), RowFt F t r := by
      intro r hr
      obtain ⟨x, hx, rfl⟩ := List.mem_map.mp hr
      refine (h x hx).bare ?_
      split <;> rfl
    have h2 : (rows.map fun r => if r.a = e then { r with uniq := at_.unique.isSome } else r).map (absRow t) =
        (rows.map (absRow t)).map fun r => if r.a = e then { r with uniq := at_.unique.isSome } else r := by
      rw [List.map_map, List.map_map]
      apply List.map_congr_left
      intro r _
      simp only [Function.comp]
      by_cases ha : r.a = e <;> simp [absRow, ha]
    unfold diskAlteration applyAlteration
    simp only
    rw [← h2, uniqueOk_abs ht h1]
    split
    · exact .ok ⟨h1, rfl⟩
    · cases at_.unique with
      | none => exact .panic (.inr rfl)
      | some u => exact .err _
  | cardinality =>
    unfold diskAlteration applyAlteration
    simp only
    split
    · exact .ok ⟨h, rfl⟩
    · exact .err _
  | noHistory => exact .ok ⟨h, rfl⟩
  | isComponent => exact .ok ⟨h, rfl⟩

theorem alterations_abs {F t} (ht : FtOk t) {at_ e} : ∀ {xs : List Alteration} {rows : List DiskRow},
    (∀ r ∈ rows, RowFt F t r) →
    Refines False (RowsShow F t) (diskAlterations at_ e xs rows) (applyAlterations at_ e xs (rows.map (absRow t)))
  | [], rows, h => .ok ⟨h, rfl⟩
  | x :: xs, rows, h => by
    have hx := alteration_abs ht h x (at_ := at_) (e := e)
    unfold diskAlterations applyAlterations
    cases hd : diskAlteration at_ e rows x with
    | panic =>
      rw [hd] at hx
      cases ha : applyAlteration at_ e (rows.map (absRow t)) x with
      | panic => exact .panic (.inr rfl)
      | ok b => rw [ha] at hx; cases hx with | panic h => exact absurd h (by simp)
      | err e' => rw [ha] at hx; cases hx with | panic h => exact absurd h (by simp)
    | err er =>
      rw [hd] at hx
      cases ha : applyAlteration at_ e (rows.map (absRow t)) x with
      | panic => rw [ha] at hx; cases hx
      | ok b => rw [ha] at hx; cases hx
      | err e' => rw [ha] at hx; cases hx; exact .err _
    | ok rows1 =>
      obtain ⟨b, hb, h1, rfl⟩ := hx.of_ok hd
      rw [hb]
      exact alterations_abs ht h1

theorem allAlterations_abs {F t} (ht : FtOk t) {s} : ∀ {alt : AMap Entid (List Alteration)} {rows : List DiskRow},
    (∀ r ∈ rows, RowFt F t r) →
    Refines False (RowsShow F t) (diskAllAlterations s alt rows) (applyAllAlterations s alt (rows.map (absRow t)))
  | [], rows, h => .ok ⟨h, rfl⟩
  | (e, xs) :: alt, rows, h => by
    unfold diskAllAlterations applyAllAlterations
    cases s.attr e with
    | none => exact .err _
    | some at_ =>
      simp only
      have hx := alterations_abs ht h (at_ := at_) (e := e) (xs := xs)
      cases hd : diskAlterations at_ e xs rows with
      | panic =>
        rw [hd] at hx
        cases ha : applyAlterations at_ e xs (rows.map (absRow t)) with
        | panic => exact .panic (.inr rfl)
        | ok b => rw [ha] at hx; cases hx with | panic h => exact absurd h (by simp)
        | err e' => rw [ha] at hx; cases hx with | panic h => exact absurd h (by simp)
      | err er =>
        rw [hd] at hx
        cases ha : applyAlterations at_ e xs (rows.map (absRow t)) with
        | panic => rw [ha] at hx; cases hx
        | ok b => rw [ha] at hx; cases hx
        | err e' => rw [ha] at hx; cases hx; exact .err _
      | ok rows1 =>
        obtain ⟨b, hb, h1, rfl⟩ := hx.of_ok hd
        rw [hb]
        exact allAlterations_abs ht h1

theorem metadata_abs {F d} (h : DiskOk F d) (s : Schema) (views : Views) (lr : List DiskLog) :
    Refines False (fun x y => x.1 = y.1 ∧ RowsShow F d.texts x.2.1 y.2.1 ∧ x.2.2 = y.2.2)
      (diskApplyMetadata s d views lr) (applyMetadata s d.shown.rows views (lr.map (absLog d.texts))) := by
  unfold diskApplyMetadata applyMetadata
  refine .same fun p _ => ?_
  obtain ⟨s', rep⟩ := p
  simp only
  split
  · refine .bind (R := fun x y => RowsShow F d.texts x.1 y.1 ∧ x.2 = y.2) ?_ ?_
    · unfold diskUpdateMetadata updateMetadata
      simp only
      have hx := allAlterations_abs h.table h.rows (s := s') (alt := rep.altered)
      show Refines _ _ _ (match applyAllAlterations s' rep.altered (d.rows.map (absRow d.texts)) with
        | .ok rows' => _
        | .err e => _
        | .panic => _)
      cases hd : diskAllAlterations s' rep.altered d.rows with
      | panic =>
        rw [hd] at hx
        cases ha : applyAllAlterations s' rep.altered (d.rows.map (absRow d.texts)) with
        | panic => exact .panic (.inr rfl)
        | ok b => rw [ha] at hx; cases hx with | panic h => exact absurd h (by simp)
        | err e' => rw [ha] at hx; cases hx with | panic h => exact absurd h (by simp)
      | err er =>
        rw [hd] at hx
        cases ha : applyAllAlterations s' rep.altered (d.rows.map (absRow d.texts)) with
        | panic => rw [ha] at hx; cases hx
        | ok b => rw [ha] at hx; cases hx
        | err e' => rw [ha] at hx; cases hx; exact .err _
      | ok rows1 =>
        obtain ⟨b, hb, h1⟩ := hx.of_ok hd
        rw [hb]
        exact .ok ⟨h1, rfl⟩
    · rintro ⟨r1, v1⟩ ⟨r2, v2⟩ ⟨h1, h2⟩
      exact .ok ⟨rfl, h1, h2⟩
  · exact .ok ⟨rfl, ⟨h.rows, rfl⟩, rfl⟩

theorem Refines.weaken {α β : Type} {P : Prop} {R : α → β → Prop} {x : Res α} {y : Res β} (h : Refines False R x y) :
    Refines P R x y := by
  cases h with
  | panic h => exact .panic (.inr (h.resolve_left id))
  | err e => exact .err e
  | ok h => exact .ok h

/-! ### The number of datoms -/

theorem nodup_flatMap_key {α β γ : Type} {f : α → List β} {key : α → γ} {bk : β → γ} {l : List α}
    (hk : (l.map key).Nodup) (h1 : ∀ x ∈ l, (f x).Nodup) (h2 : ∀ x ∈ l, ∀ y ∈ f x, bk y = key x) :
    (l.flatMap f).Nodup := by
  induction l with
  | nil => simp
  | cons x l ih =>
    simp only [List.map_cons, List.nodup_cons] at hk
    rw [List.flatMap_cons, List.nodup_append]
    refine ⟨h1 x List.mem_cons_self, ih hk.2 (fun y hy => h1 y (List.mem_cons_of_mem _ hy))
      (fun y hy => h2 y (List.mem_cons_of_mem _ hy)), ?_⟩
    intro a ha b hb e
    subst e
    obtain ⟨y, hy, hb⟩ := List.mem_flatMap.mp hb
    have e1 := h2 x List.mem_cons_self a ha
    have e2 := h2 y (List.mem_cons_of_mem _ hy) a hb
    exact hk.1 (List.mem_map.mpr ⟨y, hy, by rw [← e2, e1]⟩)

theorem reducedOf_nodup {s : Schema} {t : Trie} (h : TrieWF t) : (reducedOf s t).Nodup := by
  unfold reducedOf
  refine nodup_flatMap_key (key := fun p : (Entid × Entid) × AddAndRetract => p.1) (bk := fun q : Reduced => (q.a, q.e)) h.wf ?_ ?_
  · rintro ⟨⟨a, e⟩, ar⟩ hm
    have hen := entry_of_mem h hm
    have ha := h.addNodup a e
    have hr := h.retNodup a e
    rw [hen] at ha hr
    simp only
    split
    · rw [List.nodup_append]
      refine ⟨?_, ?_, ?_⟩
      · exact List.pairwise_map.mpr (ha.imp fun h e => h (by simpa using e))
      · exact List.pairwise_map.mpr (hr.imp fun h e => h (by simpa using e))
      · intro x hx y hy e
        obtain ⟨v, -, rfl⟩ := List.mem_map.mp hx
        obtain ⟨w, -, rfl⟩ := List.mem_map.mp hy
        simp at e
    · exact List.nodup_nil
  · rintro ⟨⟨a, e⟩, ar⟩ hm q hq
    simp only at hq
    split at hq
    · rcases List.mem_append.mp hq with hq | hq
      · obtain ⟨v, -, rfl⟩ := List.mem_map.mp hq; rfl
      · obtain ⟨v, -, rfl⟩ := List.mem_map.mp hq; rfl
    · simp at hq

/-- A nodup list is not longer than one whose elements determine its own. -/
theorem length_le_of_choice {α β : Type} {R : β → α → Prop} : ∀ {l : List α} {m : List β}, l.Nodup →
    (∀ b a a', R b a → R b a' → a = a') → (∀ a ∈ l, ∃ b ∈ m, R b a) → l.length ≤ m.length
  | [], _, _, _, _ => by simp
  | x :: l, m, hn, hf, h => by
    obtain ⟨b, hb, hr⟩ := h x List.mem_cons_self
    obtain ⟨m1, m2, rfl⟩ := List.append_of_mem hb
    simp only [List.nodup_cons] at hn
    have := length_le_of_choice (l := l) (m := m1 ++ m2) hn.2 hf (by
      intro a ha
      obtain ⟨b', hb', hr'⟩ := h a (List.mem_cons_of_mem _ ha)
      refine ⟨b', ?_, hr'⟩
      rcases List.mem_append.mp hb' with h1 | h1
      · exact List.mem_append_left _ h1
      · rcases List.mem_cons.mp h1 with h1 | h1
        · subst h1
          exact absurd (hf _ _ _ hr hr') (fun e => hn.1 (e ▸ ha))
        · exact List.mem_append_right _ h1)
    simp only [List.length_append, List.length_cons] at this ⊢
    omega

/-- The queue has at most one entry more than the transaction has terms. -/
theorem queue_length {s : Schema} {st : Store} {user : Partition} {terms : List TTerm} {ids : List TempId} {s3 : Stage3}
    {t0 t : Trie} {tx : Entid} {now i : Int} (h3 : resolveTempIds s st user terms ids = .ok s3)
    (htrie : intoTrie s s3.pops s3.inert = .ok t0) (hin : getOrInsertTxInstant s t0 tx now = .ok (i, t)) :
    (reducedOf s t).length ≤ terms.length + 1 := by
  have h0 := intoTrie_spec htrie
  have h1 := getOrInsertTxInstant_spec h0.wf hin
  obtain ⟨U, sp⟩ := resolveTempIds_spec h3
  have hterm : ∀ y ∈ s3.terms, ∃ x ∈ terms, Denotes s3.tempids x y := by
    intro y hy
    apply sp.sound
    simp only [Stage3.terms, List.mem_append] at hy
    rcases hy with (h | h) | h <;> simp [h]
  have key := length_le_of_choice (l := reducedOf s t) (m := terms.map some ++ [none])
    (R := fun b q => s.attr q.a = some q.attr ∧ match b with
      | some x => Denotes s3.tempids x ⟨if q.added then .add else .retract, q.e, q.a, q.v⟩
      | none => q.added = true ∧ q.a = DB_TX_INSTANT ∧ q.e = tx ∧ q.v = .instant i)
    (reducedOf_nodup h1.wf) ?_ ?_
  · simpa using key
  · rintro b q q' ⟨ha, hb⟩ ⟨ha', hb'⟩
    cases b with
    | none =>
      obtain ⟨b1, b2, b3, b4⟩ := hb
      obtain ⟨c1, c2, c3, c4⟩ := hb'
      have : q.attr = q'.attr := by
        rw [b2] at ha; rw [c2] at ha'
        exact Option.some.inj (ha.symm.trans ha')
      cases q; cases q'; simp only at *; subst_vars; rfl
    | some x =>
      have := Denotes.unique hb hb'
      simp only [Term.mk.injEq] at this
      obtain ⟨e1, e2, e3, e4⟩ := this
      have he : q.attr = q'.attr := by
        rw [← e3] at ha'
        exact Option.some.inj (ha.symm.trans ha')
      have hadd : q.added = q'.added := by
        cases h : q.added <;> cases h' : q'.added <;> simp [h, h'] at e1 ⊢
      cases q; cases q'; simp only at *; subst_vars; rfl
  · intro q hq
    rw [mem_reducedOf h1.wf, h1.add, h1.ret, h0.add, h0.ret] at hq
    obtain ⟨ha, hq⟩ := hq
    rcases hq with ⟨hadd, h | h⟩ | ⟨hadd, h⟩
    · obtain ⟨x, hx, hd⟩ := hterm _ h
      exact ⟨some x, by simp [hx], ha, by rw [hadd]; exact hd⟩
    · exact ⟨none, by simp, ha, hadd, h⟩
    · obtain ⟨x, hx, hd⟩ := hterm _ h
      exact ⟨some x, by simp [hx], ha, by rw [hadd]; exact hd⟩

/-! ### Transactions -/

/-- Which attributes are fulltext. -/
def ftOf (s : Schema) (a : Entid) : Bool := match s.attr a with
  | some at_ => at_.fulltext
  | none => false

/-- Fulltext attributes are of strings. -/
def FtStrings (s : Schema) : Prop := ∀ a at_, s.attr a = some at_ → at_.fulltext = true → at_.valueType = .string

/-- The queue is typed, as `TxTrace.qok`. -/
theorem queue_typed {s : Schema} {s3 : Stage3} {t0 t : Trie} {tx : Entid} {now i : Int}
    (htrie : intoTrie s s3.pops s3.inert = .ok t0) (hty : typeDisagreements s t0 = [])
    (hcard : cardinalityConflicts s t0 = []) (hin : getOrInsertTxInstant s t0 tx now = .ok (i, t))
    (hti : TxInstantOk s) : ∀ q ∈ reducedOf s t, s.attr q.a = some q.attr ∧ q.attr.valueType = q.v.valueType := by
  have h0 := intoTrie_spec htrie
  have h1 := getOrInsertTxInstant_spec h0.wf hin
  have hq0 := qok_reducedOf h0.wf hty hcard
  intro q hq
  rw [mem_reducedOf h1.wf, h1.add, h1.ret] at hq
  obtain ⟨ha, hq⟩ := hq
  refine ⟨ha, ?_⟩
  rcases hq with ⟨hadd, h | h⟩ | h
  · exact hq0.typed q ((mem_reducedOf h0.wf).mpr ⟨ha, .inl ⟨hadd, h⟩⟩)
  · obtain ⟨e1, e2, e3⟩ := h
    rw [e1] at ha
    rw [hti _ ha, e3]
    rfl
  · exact hq0.typed q ((mem_reducedOf h0.wf).mpr ⟨ha, .inr h⟩)

theorem valueType_string {v : TypedValue} (h : v.valueType = .string) : ∃ s, v = .string s := by
  cases v <;> simp [TypedValue.valueType] at h
  exact ⟨_, rfl⟩

/-- A transaction on the tables does what the transaction of Model/Transact does on what they show, or
a limit on variables is exceeded. -/
theorem diskTransact_refines {maxVars : Nat} {d : DiskDb} {sfm : Schema} {now : Int} {terms : List TTerm}
    {ids : List TempId} {act : TxAction} (hd : DiskOk (ftOf d.schema) d.disk) (hs : FtStrings d.schema)
    (hti : TxInstantOk d.schema) :
    Refines (maxVars ≤ 6 * (terms.length + 1))
      (fun x y => y = (x.1.db, x.2) ∧ DiskOk (ftOf d.schema) x.1.disk ∧ FtKeeps d.disk.texts x.1.disk.texts)
      (diskTransactWith maxVars d sfm now terms ids act) (transactTermsWith d.db sfm now terms ids act) := by
  unfold diskTransactWith transactTermsWith
  refine .same fun p hp => ?_
  obtain ⟨tx, txPart⟩ := p
  simp only
  rw [resolveTempIds_lookup (st := { rows := d.disk.allDatoms }) (st' := d.db.store) (lookup_shown hd)]
  refine .same fun s3 hs3 => ?_
  refine .same fun t0 ht0 => ?_
  refine .bind (R := fun x y => y = (x.1, x.2.1.shown, x.2.2.1, x.2.2.2) ∧ DiskOk (ftOf d.schema) x.2.1 ∧
    FtKeeps d.disk.texts x.2.1.texts) ?_ ?_
  · unfold diskApplyTrie applyTrie
    refine .same fun _ hty => ?_
    refine .same fun _ hcard => ?_
    refine .same fun p hin => ?_
    obtain ⟨instant, t⟩ := p
    simp only [Res.require_eq_ok] at hty hcard
    simp only
    have hq := queue_typed ht0 hty hcard hin hti
    refine .bind (R := fun x y => y = (x.1.shown, x.2.map (absLog x.1.texts)) ∧ DiskOk (ftOf d.schema) x.1 ∧
      FtKeeps d.disk.texts x.1.texts) ?_ ?_
    · rcases diskApply_ok (maxVars := maxVars) (tx := tx) (action := act) hd
        (qs := reducedOf d.schema t)
        (fun q hm => by unfold ftOf; rw [(hq q hm).1])
        (fun q hm hf => valueType_string (by rw [← (hq q hm).2]; exact hs _ _ (hq q hm).1 hf)) with
        h | ⟨e, h, h'⟩ | ⟨d', lr, h, h1, h2, -, h3⟩
      · rw [h]
        refine .panic (.inl ?_)
        have hl := queue_length hs3 ht0 hin
        have hw := mt (diskApply_within (maxVars := maxVars) (tx := tx) (action := act) hd
          (qs := reducedOf d.schema t)
          (fun q hm hf => valueType_string (by rw [← (hq q hm).2]; exact hs _ _ (hq q hm).1 hf))) (not_not_intro h)
        have : (reducedOf d.schema t).length ≤ terms.length + 1 := hl
        omega
      · rw [h]
        rw [show d.db.store.apply tx (reducedOf d.db.schema t) act = .err e from h']
        exact .err _
      · rw [h]
        rw [show d.db.store.apply tx (reducedOf d.db.schema t) act = _ from h3]
        exact .ok ⟨rfl, h1, h2⟩
    · rintro ⟨d', lr⟩ y ⟨rfl, h1, h2⟩
      simp only
      split
      · rw [if_pos (by assumption)]
        refine .bind (metadata_abs h1 sfm d.views lr).weaken ?_
        rintro ⟨s1, r1, v1⟩ ⟨s2, r2, v2⟩ ⟨rfl, ⟨h3, rfl⟩, rfl⟩
        exact .ok ⟨rfl, ⟨h1.table, h1.clean, h3, h1.log⟩, h2⟩
      · rw [if_neg (by assumption)]
        exact .ok ⟨rfl, h1, h2⟩
  · rintro ⟨s', d', v', i⟩ y ⟨rfl, h1, h2⟩
    exact .ok ⟨rfl, h1, h2⟩

/-! ### The schema -/

theorem mutate_fulltext (b : AttributeBuilder) (a : Attribute) :
    (b.mutate a).1.fulltext = a.fulltext := rfl

theorem applyMetadata_fulltext {s rows views lr s' rows' views'}
    (h : applyMetadata s rows views lr = .ok (s', rows', views')) :
    (∀ a at_, s.attr a = some at_ → ¬ RetractsValueType lr a → ∃ at', s'.attr a = some at' ∧ at'.fulltext = at_.fulltext) ∧
    (FtStrings s → FtStrings s') := by
  unfold applyMetadata at h
  rw [Res.bind_eq_ok] at h
  obtain ⟨⟨s1, rep⟩, h1, h⟩ := h
  simp only at h
  split at h
  · rw [Res.bind_eq_ok] at h
    obtain ⟨⟨rows1, views1⟩, h2, h⟩ := h
    simp only [Res.pure_eq, Res.ok.injEq, Prod.mk.injEq] at h
    obtain ⟨rfl, rfl, rfl⟩ := h
    obtain ⟨as_, is, am, retr, am', rep0, hc, hr, hu, hs1, -, hrep⟩ := updateSchema_ok h1
    obtain ⟨bs, bs0, -, -, hw, hb⟩ := updateAttributeMap_ok hu
    have hkeep : ∀ a, ¬ RetractsValueType lr a → AMap.get am a = AMap.get s.attributeMap a := by
      intro a hna
      apply schemaRetractions_ok hr
      intro v hv
      unfold triplesOf at hv
      rw [List.mem_map] at hv
      obtain ⟨⟨⟨e1, a1⟩, v1⟩, hm, heq⟩ := hv
      simp only [Prod.mk.injEq] at heq
      obtain ⟨rfl, rfl, rfl⟩ := heq
      rcases collectMeta_retracted hc hm with h | h
      · simp at h
      · apply hna
        unfold metadataAssertions at h
        rw [mem_sortQuads, List.mem_map] at h
        obtain ⟨l, hl, heq⟩ := h
        simp only [Prod.mk.injEq] at heq
        exact ⟨l, (List.mem_filter.mp hl).1, heq.1, heq.2.1, heq.2.2.2⟩
    refine ⟨?_, ?_⟩
    · intro a at_ hat hnr
      have hga : AMap.get am a = some at_ := by rw [hkeep a hnr]; exact hat
      cases hg : AMap.get bs a with
      | none =>
        refine ⟨at_, ?_, rfl⟩
        unfold Schema.attr; rw [hs1, (hb.untouched a hg).1, hga]
      | some b =>
        obtain ⟨d1, -⟩ := hb.altered a b at_ hg hga
        exact ⟨_, by unfold Schema.attr; rw [hs1]; exact d1, mutate_fulltext b at_⟩
    · intro hst a at' hat' hft
      unfold Schema.attr at hat'
      rw [hs1] at hat'
      have hsub : ∀ at_, AMap.get am a = some at_ → s.attr a = some at_ := by
        intro at_ hg
        unfold schemaRetractions at hr
        exact schemaRetractions_go_sub hr hg
      cases hg : AMap.get bs a with
      | none =>
        rw [(hb.untouched a hg).1] at hat'
        exact hst a at' (hsub _ hat') hft
      | some b =>
        cases hga : AMap.get am a with
        | none =>
          obtain ⟨d1, -, d3, -⟩ := hb.installed a b hg hga
          rw [hat'] at d1; cases d1
          unfold Attribute.valid at d3
          simp only [Bool.and_eq_true, hft, Bool.not_true, Bool.false_or, decide_eq_true_eq] at d3
          exact d3.1.1.2
        | some at_ =>
          obtain ⟨d1, -⟩ := hb.altered a b at_ hg hga
          rw [hat'] at d1; cases d1
          rw [mutate_valueType]
          exact hst a at_ (hsub _ hga) (by rw [mutate_fulltext b at_] at hft; exact hft)
  · simp only [Res.pure_eq, Res.ok.injEq, Prod.mk.injEq] at h
    obtain ⟨rfl, rfl, rfl⟩ := h
    exact ⟨fun a at_ h _ => ⟨at_, h, rfl⟩, id⟩

theorem bootstrapSchema_fulltext {s : Schema} (h : bootstrapSchema = .ok s) : FtStrings s := by
  have key : (match bootstrapSchema with
      | .ok s => s.attributeMap.all fun p => !p.2.fulltext || decide (p.2.valueType = .string)
      | _ => false) = true := by decide +kernel
  rw [h] at key
  simp only [List.all_eq_true] at key
  intro a at_ hat hft
  have := key _ (AMap.get_some_mem hat)
  simpa [hft] using this

/-! ### Histories -/

/-- Stores as SQLite has them, after any transactions that undefine no attribute in use. -/
inductive ReachDisk (maxVars : Nat) : DiskDb → Prop
  | boot {now d} : diskCreate maxVars now = .ok d → ReachDisk maxVars d
  | step {d d'} {now terms ids rep} : ReachDisk maxVars d → KnownTerms d.db terms →
      diskTransact maxVars d now terms ids = .ok (d', rep) → KeepsUsedAttributes d.db d'.db → ReachDisk maxVars d'

theorem diskOk_congr {F F' d} (h : DiskOk F d) (e : ∀ r ∈ d.rows, F' r.a = F r.a) : DiskOk F' d :=
  ⟨h.table, h.clean, fun r hr => ⟨by rw [e r hr]; exact (h.rows r hr).ft, by rw [e r hr]; exact (h.rows r hr).cell⟩, h.log⟩

/-- The fulltext attributes in use stay so, the others too. -/
theorem ftOf_step {db now terms ids db' rep} (hi : RowsInv db.schema db.store.rows)
    (ht : TxInstantOk db.schema)
    (h : transactTerms db now terms ids = .ok (db', rep)) (hk : KeepsUsedAttributes db db') :
    (∀ r ∈ db'.store.rows, ftOf db'.schema r.a = ftOf db.schema r.a) ∧ (FtStrings db.schema → FtStrings db'.schema) := by
  obtain ⟨T⟩ := transact_trace h
  have hq := T.qok ht
  have h1 := rowsInv_apply hi hq T.applied
  rcases T.md with ⟨hm, -⟩ | ⟨hs, hr, -, -⟩
  · have hst := applyMetadata_step hm
    obtain ⟨f, hf, hf', -⟩ := hst.reflagged
    have hap := applySpec hi.uniq T.applied
    have hnr : ∀ r ∈ T.store.rows, ¬ RetractsValueType T.lr r.a := by
      rintro r hr ⟨l, hl, hle, hla, hadd⟩
      obtain ⟨hb, hn⟩ := hap.retracted l hl hadd
      rw [hle, hla] at hb hn
      refine hk r.a l.v hb ?_ (f r) (by rw [hf]; exact List.mem_map.mpr ⟨r, hr, rfl⟩) (hf' r).2.1
      rw [hf, has_map hf']; exact hn
    obtain ⟨k1, k2⟩ := applyMetadata_fulltext hm
    refine ⟨?_, k2⟩
    intro r hr
    rw [hf] at hr
    obtain ⟨x, hx, rfl⟩ := List.mem_map.mp hr
    rw [(hf' x).2.1]
    obtain ⟨at_, hat, -⟩ := h1.typed x hx
    obtain ⟨at', hat', e⟩ := k1 _ _ hat (hnr x hx)
    unfold ftOf
    rw [hat, hat']
    exact e
  · rw [hs]; exact ⟨fun _ _ => rfl, id⟩

theorem diskOk_empty (F : Entid → Bool) : DiskOk F {} :=
  ⟨⟨List.nodup_nil, List.nodup_nil⟩, by intro r hr; simp at hr, by intro r hr; simp at hr, by intro r hr; simp at hr⟩

/-- A reachable store shows a reachable database. -/
theorem reachDisk_ok {maxVars : Nat} {d : DiskDb} (h : ReachDisk maxVars d) :
    ReachKept d.db ∧ DiskOk (ftOf d.schema) d.disk ∧ FtStrings d.schema := by
  induction h with
  | @boot now d h =>
    unfold diskCreate at h
    rw [Res.bind_eq_ok] at h
    obtain ⟨s, h1, h⟩ := h
    rw [Res.bind_eq_ok] at h
    obtain ⟨⟨d1, rep⟩, h2, h⟩ := h
    simp only at h
    split at h
    · rename_i hsame
      simp only [Res.pure_eq, Res.ok.injEq] at h
      subst h
      have hst := bootstrapSchema_fulltext h1
      obtain ⟨b, hb, rfl, h3, -⟩ := (diskTransact_refines (diskOk_empty _) hst (bootstrapSchema_txInstant h1)).of_ok h2
      refine ⟨.boot (now := now) ?_, h3, hst⟩
      unfold createCurrentVersion
      rw [Res.bind_eq_ok]
      refine ⟨s, h1, ?_⟩
      rw [Res.bind_eq_ok]
      refine ⟨_, hb, ?_⟩
      simp only
      rw [if_pos (show Schema.same d1.db.schema s = true from hsame)]
      rfl
    · simp at h
  | step hr hkn ht hk ih =>
    obtain ⟨i1, i2, i3⟩ := ih
    obtain ⟨j1, j2⟩ := rowsInv_reach i1
    obtain ⟨b, hb, rfl, h3, -⟩ := (diskTransact_refines i2 i3 j2).of_ok ht
    obtain ⟨k1, k2⟩ := ftOf_step j1 j2 hb hk
    refine ⟨.step i1 ⟨_, _, _, _, hkn, hb⟩ hk, diskOk_congr h3 ?_, k2 i3⟩
    intro r hr
    exact k1 (absRow _ r) (List.mem_map_of_mem hr)

end Mentat
