import Verif.Props.Checks
import Verif.Proofs.Idents
/- What one transaction's metadata changes do to the ident maps and to the `idents` table. -/
namespace Mentat

/-! ### Sorting the changes -/

theorem wf_witness {K V : Type} [DecidableEq K] {s : ARASet K V} (k : K) (v : V) (b : Bool)
    (h : AMap.WF s.asserted ∧ AMap.WF s.retracted ∧ AMap.WF s.altered) :
    AMap.WF (s.witness k v b).asserted ∧ AMap.WF (s.witness k v b).retracted ∧
      AMap.WF (s.witness k v b).altered := by
  obtain ⟨h1, h2, h3⟩ := h
  unfold ARASet.witness
  split
  · split
    · exact ⟨h1, AMap.wf_erase h2 _, AMap.wf_insert h3 _ _⟩
    · exact ⟨AMap.wf_insert h1 _ _, h2, h3⟩
  · split
    · exact ⟨AMap.wf_erase h1 _, h2, AMap.wf_insert h3 _ _⟩
    · exact ⟨h1, AMap.wf_insert h2 _ _, h3⟩

theorem wf_witnessAll {K V : Type} [DecidableEq K] {l : List (K × V × Bool)} {s : ARASet K V}
    (h : AMap.WF s.asserted ∧ AMap.WF s.retracted ∧ AMap.WF s.altered) :
    AMap.WF (s.witnessAll l).asserted ∧ AMap.WF (s.witnessAll l).retracted ∧
      AMap.WF (s.witnessAll l).altered := by
  induction l generalizing s with
  | nil => exact h
  | cons x r ih => obtain ⟨k, v, b⟩ := x; exact ih (wf_witness k v b h)

/-- The changes of idents among the quadruples. -/
def identChanges : List (Entid × Entid × TypedValue × Bool) → List (Entid × Keyword × Bool)
  | [] => []
  | (e, a, v, b) :: r =>
    match decide (a = DB_IDENT), v with
    | true, .keyword k => (e, k, b) :: identChanges r
    | _, _ => identChanges r

/-- The other changes. -/
def attrChanges : List (Entid × Entid × TypedValue × Bool) → List ((Entid × Entid) × TypedValue × Bool)
  | [] => []
  | (e, a, v, b) :: r => if a = DB_IDENT then attrChanges r else ((e, a), v, b) :: attrChanges r

theorem mem_identChanges {q : List (Entid × Entid × TypedValue × Bool)} {e k b} :
    (e, k, b) ∈ identChanges q ↔ (e, DB_IDENT, .keyword k, b) ∈ q := by
  induction q with
  | nil => simp [identChanges]
  | cons x r ih =>
    obtain ⟨e', a', v', b'⟩ := x
    by_cases ha : a' = DB_IDENT
    · subst ha
      cases v' <;> simp [identChanges, ih]
    · have : (e, DB_IDENT, TypedValue.keyword k, b) ≠ (e', a', v', b') := by
        intro h; simp only [Prod.mk.injEq] at h; exact ha h.2.1.symm
      simp [identChanges, ha, ih, Ne.symm ha]

theorem mem_attrChanges {q : List (Entid × Entid × TypedValue × Bool)} {e a v b} :
    ((e, a), v, b) ∈ attrChanges q ↔ (e, a, v, b) ∈ q ∧ a ≠ DB_IDENT := by
  induction q with
  | nil => simp [attrChanges]
  | cons x r ih =>
    obtain ⟨e', a', v', b'⟩ := x
    by_cases ha : a' = DB_IDENT
    · subst ha
      simp only [attrChanges, if_true, ih, List.mem_cons, Prod.mk.injEq]
      constructor
      · rintro ⟨h, hne⟩; exact ⟨Or.inr h, hne⟩
      · rintro ⟨h | h, hne⟩
        · exact absurd h.2.1 hne
        · exact ⟨h, hne⟩
    · simp only [attrChanges, ha, if_false, List.mem_cons, Prod.mk.injEq, ih]
      constructor
      · rintro (⟨⟨rfl, rfl⟩, rfl, rfl⟩ | ⟨h, hne⟩)
        · exact ⟨Or.inl ⟨rfl, rfl, rfl, rfl⟩, ha⟩
        · exact ⟨Or.inr h, hne⟩
      · rintro ⟨⟨rfl, rfl, rfl, rfl⟩ | h, hne⟩
        · exact Or.inl ⟨⟨rfl, rfl⟩, rfl, rfl⟩
        · exact Or.inr ⟨h, hne⟩

theorem nodup_identChanges {q : List (Entid × Entid × TypedValue × Bool)} (h : q.Nodup) :
    (identChanges q).Nodup := by
  induction q with
  | nil => simp [identChanges]
  | cons x r ih =>
    obtain ⟨e', a', v', b'⟩ := x
    rw [List.nodup_cons] at h
    by_cases ha : a' = DB_IDENT
    · subst ha
      cases v' <;> simp only [identChanges, decide_true] <;> try exact ih h.2
      rw [List.nodup_cons]
      exact ⟨fun hm => h.1 (mem_identChanges.1 hm), ih h.2⟩
    · simp [identChanges, ha, ih h.2]

theorem nodup_attrChanges {q : List (Entid × Entid × TypedValue × Bool)} (h : q.Nodup) :
    (attrChanges q).Nodup := by
  induction q with
  | nil => simp [attrChanges]
  | cons x r ih =>
    obtain ⟨e', a', v', b'⟩ := x
    rw [List.nodup_cons] at h
    by_cases ha : a' = DB_IDENT
    · simp [attrChanges, ha, ih h.2]
    · simp only [attrChanges, ha, if_false, List.nodup_cons]
      exact ⟨fun hm => h.1 (mem_attrChanges.1 hm).1, ih h.2⟩

theorem collectMeta_eq {q as0 is0 as_ is} (h : collectMeta q as0 is0 = .ok (as_, is)) :
    as_ = as0.witnessAll (attrChanges q) ∧ is = is0.witnessAll (identChanges q) := by
  induction q generalizing as0 is0 with
  | nil => cases h; exact ⟨rfl, rfl⟩
  | cons x r ih =>
    obtain ⟨e, a, v, b⟩ := x
    simp only [collectMeta] at h
    split at h
    · rename_i ha
      split at h
      · obtain ⟨h1, h2⟩ := ih h
        subst ha
        refine ⟨by simpa [attrChanges] using h1, ?_⟩
        simpa [identChanges, ARASet.witnessAll] using h2
      · cases h
    · rename_i ha
      obtain ⟨h1, h2⟩ := ih h
      refine ⟨by simpa [attrChanges, ha, ARASet.witnessAll] using h1, ?_⟩
      simpa [identChanges, ha] using h2

theorem length_le_one {α : Type} {l : List α} (hn : l.Nodup) (h : ∀ x ∈ l, ∀ y ∈ l, x = y) :
    l.length ≤ 1 := by
  match l with
  | [] => simp
  | [_] => simp
  | x :: y :: r =>
    have := h x (by simp) y (by simp)
    subst this
    simp at hn

/-- Classification of changes of which each key has at most one addition and one retraction. -/
theorem classified {K V : Type} [DecidableEq K] {l : List (K × V × Bool)} (hn : l.Nodup)
    (h1 : ∀ k v v', (k, v, true) ∈ l → (k, v', true) ∈ l → v = v')
    (h2 : ∀ k v v', (k, v, false) ∈ l → (k, v', false) ∈ l → v = v') :
    (∀ k v, (k, v) ∈ (ARASet.witnessAll {} l).asserted ↔ (k, v, true) ∈ l ∧ ∀ o, (k, o, false) ∉ l) ∧
    (∀ k v, (k, v) ∈ (ARASet.witnessAll {} l).retracted ↔ (k, v, false) ∈ l ∧ ∀ n, (k, n, true) ∉ l) ∧
    (∀ k o n, (k, (o, n)) ∈ (ARASet.witnessAll {} l).altered ↔ (k, o, false) ∈ l ∧ (k, n, true) ∈ l) := by
  obtain ⟨w1, w2, w3⟩ := wf_witnessAll (l := l) (s := ({} : ARASet K V))
    ⟨AMap.wf_nil, AMap.wf_nil, AMap.wf_nil⟩
  have hab : ∀ k, (about k l).Nodup := by
    intro k
    unfold about
    refine List.Pairwise.filterMap _ ?_ hn
    rintro ⟨k1, v1, b1⟩ ⟨k2, v2, b2⟩ hne x hx y hy rfl
    simp only [Option.ite_none_right_eq_some, Option.some.injEq] at hx hy
    obtain ⟨rfl, rfl⟩ := hx
    obtain ⟨rfl, hy⟩ := hy
    simp only [Prod.mk.injEq] at hy
    obtain ⟨rfl, rfl⟩ := hy
    exact hne rfl
  have key : ∀ k, ((about k l).filter (·.2)).length ≤ 1 ∧ ((about k l).filter (!·.2)).length ≤ 1 := by
    intro k
    constructor
    · refine length_le_one ((hab k).filter _) ?_
      rintro ⟨x, b⟩ hx ⟨y, c⟩ hy
      simp only [List.mem_filter] at hx hy
      obtain ⟨hx, rfl⟩ := hx
      obtain ⟨hy, rfl⟩ := hy
      rw [h1 k x y (mem_about.1 hx) (mem_about.1 hy)]
    · refine length_le_one ((hab k).filter _) ?_
      rintro ⟨x, b⟩ hx ⟨y, c⟩ hy
      simp only [List.mem_filter, Bool.not_eq_true'] at hx hy
      obtain ⟨hx, rfl⟩ := hx
      obtain ⟨hy, rfl⟩ := hy
      rw [h2 k x y (mem_about.1 hx) (mem_about.1 hy)]
  refine ⟨fun k v => ?_, fun k v => ?_, fun k o n => ?_⟩
  · rw [← (C10_exact_partial l k (key k).1 (key k).2).1 v]
    exact ⟨AMap.mem_get w1, AMap.get_some_mem⟩
  · rw [← (C10_exact_partial l k (key k).1 (key k).2).2.1 v]
    exact ⟨AMap.mem_get w2, AMap.get_some_mem⟩
  · rw [← (C10_exact_partial l k (key k).1 (key k).2).2.2 o n]
    exact ⟨AMap.mem_get w3, AMap.get_some_mem⟩

/-! ### The three passes over the ident maps -/

theorem assertIdents_entid {l : List (Entid × Keyword)} {s : Schema} {e : Entid} :
    (∀ k, (e, k) ∈ l → (∀ k', (e, k') ∈ l → k' = k) → AMap.get (assertIdents l s).entidMap e = some k) ∧
    ((∀ k, (e, k) ∉ l) → AMap.get (assertIdents l s).entidMap e = AMap.get s.entidMap e) := by
  induction l generalizing s with
  | nil => simp [assertIdents]
  | cons x r ih =>
    obtain ⟨e', k'⟩ := x
    simp only [assertIdents]
    refine ⟨fun k hk hu => ?_, fun hn => ?_⟩
    · by_cases hr : ∃ k2, (e, k2) ∈ r
      · obtain ⟨k2, hr⟩ := hr
        obtain rfl := hu k2 (List.mem_cons_of_mem _ hr)
        exact ih.1 _ hr fun k3 h3 => hu k3 (List.mem_cons_of_mem _ h3)
      · rw [not_exists] at hr
        rw [ih.2 hr]
        rcases List.mem_cons.1 hk with h | h
        · cases h; simp
        · exact absurd h (hr k)
    · rw [ih.2 fun k h => hn k (List.mem_cons_of_mem _ h)]
      exact AMap.get_insert_ne _ _ fun h => hn k' (by simp [h])

theorem assertIdents_ident {l : List (Entid × Keyword)} {s : Schema} {k : Keyword} :
    (∀ e, (e, k) ∈ l → (∀ e', (e', k) ∈ l → e' = e) → AMap.get (assertIdents l s).identMap k = some e) ∧
    ((∀ e, (e, k) ∉ l) → AMap.get (assertIdents l s).identMap k = AMap.get s.identMap k) := by
  induction l generalizing s with
  | nil => simp [assertIdents]
  | cons x r ih =>
    obtain ⟨e', k'⟩ := x
    simp only [assertIdents]
    refine ⟨fun e he hu => ?_, fun hn => ?_⟩
    · by_cases hr : ∃ e2, (e2, k) ∈ r
      · obtain ⟨e2, hr⟩ := hr
        obtain rfl := hu e2 (List.mem_cons_of_mem _ hr)
        exact ih.1 _ hr fun e3 h3 => hu e3 (List.mem_cons_of_mem _ h3)
      · rw [not_exists] at hr
        rw [ih.2 hr]
        rcases List.mem_cons.1 he with h | h
        · cases h; simp
        · exact absurd h (hr e)
    · rw [ih.2 fun e h => hn e (List.mem_cons_of_mem _ h)]
      exact AMap.get_insert_ne _ _ fun h => hn e' (by simp [h])

theorem alterIdents_entid {l : List (Entid × Keyword × Keyword)} {s : Schema} {e : Entid} :
    (∀ o k, (e, o, k) ∈ l → (∀ o' k', (e, o', k') ∈ l → k' = k) →
      AMap.get (alterIdents l s).entidMap e = some k) ∧
    ((∀ o k, (e, o, k) ∉ l) → AMap.get (alterIdents l s).entidMap e = AMap.get s.entidMap e) := by
  induction l generalizing s with
  | nil => simp [alterIdents]
  | cons x r ih =>
    obtain ⟨e', o', k'⟩ := x
    simp only [alterIdents]
    refine ⟨fun o k hk hu => ?_, fun hn => ?_⟩
    · by_cases hr : ∃ o2 k2, (e, o2, k2) ∈ r
      · obtain ⟨o2, k2, hr⟩ := hr
        obtain rfl := hu o2 k2 (List.mem_cons_of_mem _ hr)
        exact ih.1 _ _ hr fun o3 k3 h3 => hu o3 k3 (List.mem_cons_of_mem _ h3)
      · simp only [not_exists] at hr
        rw [ih.2 hr]
        rcases List.mem_cons.1 hk with h | h
        · cases h; simp
        · exact absurd h (hr o k)
    · rw [ih.2 fun o k h => hn o k (List.mem_cons_of_mem _ h)]
      exact AMap.get_insert_ne _ _ fun h => hn o' k' (by simp [h])

theorem alterIdents_ident {l : List (Entid × Keyword × Keyword)} {s : Schema} {k : Keyword} :
    (∀ e o, (e, o, k) ∈ l → (∀ e' o', (e', o', k) ∈ l → e' = e) → (∀ e' n, (e', k, n) ∉ l) →
      AMap.get (alterIdents l s).identMap k = some e) ∧
    ((∀ e o, (e, o, k) ∉ l) →
      ((∃ e n, (e, k, n) ∈ l) ∨ AMap.get s.identMap k = none) →
      AMap.get (alterIdents l s).identMap k = none) ∧
    ((∀ e o, (e, o, k) ∉ l) → (∀ e n, (e, k, n) ∉ l) →
      AMap.get (alterIdents l s).identMap k = AMap.get s.identMap k) := by
  induction l generalizing s with
  | nil => simp [alterIdents]
  | cons x r ih =>
    obtain ⟨e', o', k'⟩ := x
    simp only [alterIdents]
    refine ⟨fun e o he hu ho => ?_, fun hn hor => ?_, fun hn ho => ?_⟩
    · have hor : ∀ e' n, (e', k, n) ∉ r := fun e n h => ho e n (List.mem_cons_of_mem _ h)
      by_cases hr : ∃ e2 o2, (e2, o2, k) ∈ r
      · obtain ⟨e2, o2, hr⟩ := hr
        obtain rfl := hu e2 o2 (List.mem_cons_of_mem _ hr)
        exact ih.1 _ _ hr (fun e3 o3 h3 => hu e3 o3 (List.mem_cons_of_mem _ h3)) hor
      · simp only [not_exists] at hr
        rw [ih.2.2 hr hor]
        rcases List.mem_cons.1 he with h | h
        · cases h; simp
        · exact absurd h (hr e o)
    · have hnr : ∀ e o, (e, o, k) ∉ r := fun e o h => hn e o (List.mem_cons_of_mem _ h)
      have hk : k' ≠ k := fun h => hn e' o' (by simp [h])
      refine ih.2.1 hnr ?_
      rcases hor with ⟨e, n, h⟩ | h
      · rcases List.mem_cons.1 h with h | h
        · cases h
          right; simp [AMap.get_insert_ne _ _ hk]
        · exact Or.inl ⟨e, n, h⟩
      · right; simp [AMap.get_insert_ne _ _ hk, AMap.get_erase, h]
    · rw [ih.2.2 (fun e o h => hn e o (List.mem_cons_of_mem _ h))
        fun e n h => ho e n (List.mem_cons_of_mem _ h)]
      have hk : k' ≠ k := fun h => hn e' o' (by simp [h])
      have hok : o' ≠ k := fun h => ho e' k' (by simp [h])
      simp [AMap.get_insert_ne _ _ hk, AMap.get_erase, hok]

theorem retractIdents_entid {l : List (Entid × Keyword)} {s : Schema} {e : Entid} :
    (((∃ k, (e, k) ∈ l) ∨ AMap.get s.entidMap e = none) →
      AMap.get (retractIdents l s).entidMap e = none) ∧
    ((∀ k, (e, k) ∉ l) → AMap.get (retractIdents l s).entidMap e = AMap.get s.entidMap e) := by
  induction l generalizing s with
  | nil => simp [retractIdents]
  | cons x r ih =>
    obtain ⟨e', k'⟩ := x
    simp only [retractIdents]
    refine ⟨fun h => ih.1 ?_, fun hn => ?_⟩
    · rcases h with ⟨k, h⟩ | h
      · rcases List.mem_cons.1 h with h | h
        · cases h; right; simp
        · exact Or.inl ⟨k, h⟩
      · right; simp [AMap.get_erase, h]
    · rw [ih.2 fun k h => hn k (List.mem_cons_of_mem _ h)]
      have : e' ≠ e := fun h => hn k' (by simp [h])
      simp [AMap.get_erase, this]

theorem retractIdents_ident {l : List (Entid × Keyword)} {s : Schema} {k : Keyword} :
    (((∃ e, (e, k) ∈ l) ∨ AMap.get s.identMap k = none) →
      AMap.get (retractIdents l s).identMap k = none) ∧
    ((∀ e, (e, k) ∉ l) → AMap.get (retractIdents l s).identMap k = AMap.get s.identMap k) := by
  induction l generalizing s with
  | nil => simp [retractIdents]
  | cons x r ih =>
    obtain ⟨e', k'⟩ := x
    simp only [retractIdents]
    refine ⟨fun h => ih.1 ?_, fun hn => ?_⟩
    · rcases h with ⟨e, h⟩ | h
      · rcases List.mem_cons.1 h with h | h
        · cases h; right; simp
        · exact Or.inl ⟨e, h⟩
      · right; simp [AMap.get_erase, h]
    · rw [ih.2 fun e h => hn e (List.mem_cons_of_mem _ h)]
      have : k' ≠ k := fun h => hn e' (by simp [h])
      simp [AMap.get_erase, this]

/-! ### One transaction -/

/-- `:db/ident` is as bootstrapped: keywords, one for each entity, no two entities with the same. -/
def IdentAttr (s : Schema) : Prop :=
  ∃ at_, s.attr DB_IDENT = some at_ ∧ at_.valueType = .keyword ∧ at_.multival = false ∧
    at_.unique.isSome = true

/-- The datoms of one `:db/ident` attribute give each entity one ident and each ident one entity. -/
structure IdentRows (rows : List Row) : Prop where
  one : ∀ e v v', Has rows e DB_IDENT v → Has rows e DB_IDENT v' → v = v'
  unique : ∀ e e' v, Has rows e DB_IDENT v → Has rows e' DB_IDENT v → e = e'
  keyword : ∀ e v, Has rows e DB_IDENT v → ∃ k, v = .keyword k

theorem RowsInv.identRows {s : Schema} {rows : List Row} (h : RowsInv s rows) (hi : IdentAttr s) :
    IdentRows rows := by
  obtain ⟨at_, hat, hty, hm, hu⟩ := hi
  refine ⟨?_, ?_, ?_⟩
  · rintro e v v' ⟨r, hr, he, ha, rfl⟩ ⟨r', hr', he', ha', rfl⟩
    rw [h.one r hr r' hr' at_ (by rw [ha]; exact hat) hm (he.trans he'.symm) (ha.trans ha'.symm)]
  · rintro e e' v ⟨r, hr, he, ha, rfl⟩ ⟨r', hr', he', ha', hv⟩
    have flag : ∀ x ∈ rows, x.a = DB_IDENT → x.uniq = true := by
      intro x hx hxa
      obtain ⟨at', hat', -, hfl, -⟩ := h.typed x hx
      rw [hxa, hat] at hat'
      cases hat'
      rw [hfl, hu]
    rw [← he, ← he', uniqueOk_av h.uniq hr hr' (flag r hr ha) (flag r' hr' ha') (ha.trans ha'.symm) hv.symm]
  · rintro e v ⟨r, hr, -, ha, rfl⟩
    obtain ⟨at', hat', hty', -⟩ := h.typed r hr
    rw [ha, hat] at hat'
    cases hat'
    rw [hty] at hty'
    cases hv : r.v <;> rw [hv] at hty' <;> simp [TypedValue.valueType] at hty'
    exact ⟨_, rfl⟩

/-- The effect of `updateSchema` on the ident maps, given which idents there were (`old`) and are
(`new`) and that the quadruples are the difference. -/
theorem updateSchema_idents {s quads s' rep} {old new : Entid → Keyword → Prop}
    (h : updateSchema s quads = .ok (s', rep)) (hn : quads.Nodup)
    (hA : ∀ e k, (e, DB_IDENT, .keyword k, true) ∈ quads ↔ new e k ∧ ¬ old e k)
    (hR : ∀ e k, (e, DB_IDENT, .keyword k, false) ∈ quads ↔ old e k ∧ ¬ new e k)
    (o1 : ∀ e k k', old e k → old e k' → k = k') (n1 : ∀ e k k', new e k → new e k' → k = k')
    (n2 : ∀ e e' k, new e k → new e' k → e = e') :
    ((∀ e k, AMap.get s.entidMap e = some k ↔ old e k) →
      ∀ e k, AMap.get s'.entidMap e = some k ↔ new e k) ∧
    ((∀ k e, AMap.get s.identMap k = some e ↔ old e k) → (∀ k e e', old e k → new e' k → e = e') →
      ∀ k e, AMap.get s'.identMap k = some e ↔ new e k) ∧
    (rep.identsAltered = [] → ∀ e k, old e k ↔ new e k) := by
  obtain ⟨as_, is, am, retr, am', rep0, hc, -, -, -, hs', hrep⟩ := updateSchema_ok h
  obtain ⟨-, his⟩ := collectMeta_eq hc
  obtain ⟨c1, c2, c3⟩ := classified (nodup_identChanges hn)
    (fun e k k' h h' => n1 e k k' ((hA e k).1 (mem_identChanges.1 h)).1 ((hA e k').1 (mem_identChanges.1 h')).1)
    (fun e k k' h h' => o1 e k k' ((hR e k).1 (mem_identChanges.1 h)).1 ((hR e k').1 (mem_identChanges.1 h')).1)
  simp only [mem_identChanges, hA, hR, ← his] at c1 c2 c3
  have m1 : ∀ e k, (e, k) ∈ sortBy (·.1) is.asserted ↔ (new e k ∧ ¬ old e k) ∧ ∀ o, ¬ (old e o ∧ ¬ new e o) := by
    intro e k; rw [mem_sortBy]; exact c1 e k
  have m2 : ∀ e k, (e, k) ∈ sortBy (·.1) is.retracted ↔ (old e k ∧ ¬ new e k) ∧ ∀ n, ¬ (new e n ∧ ¬ old e n) := by
    intro e k; rw [mem_sortBy]; exact c2 e k
  have m3 : ∀ e o n, (e, o, n) ∈ sortBy (·.1) is.altered ↔ (old e o ∧ ¬ new e o) ∧ (new e n ∧ ¬ old e n) := by
    intro e o n; rw [mem_sortBy]; exact c3 e o n
  generalize sortBy (·.1) is.asserted = A at hs' m1
  generalize sortBy (·.1) is.retracted = R at hs' m2
  generalize sortBy (·.1) is.altered = L at hs' m3
  generalize hs0 : ({ s with attributeMap := am' } : Schema) = s0 at hs'
  have he0 : s0.entidMap = s.entidMap := by rw [← hs0]
  have hi0 : s0.identMap = s.identMap := by rw [← hs0]
  refine ⟨fun hold e => ?_, fun hold hst k => ?_, fun hempty e k => ?_⟩
  · -- the entity's new ident, whatever class it is in
    have hnew : ∀ k, new e k → AMap.get s'.entidMap e = some k := by
      intro k hk
      have hr : ∀ k', (e, k') ∉ R := by
        intro k' hm
        obtain ⟨⟨h1, h2⟩, h3⟩ := (m2 e k').1 hm
        by_cases ho : old e k
        · exact h2 (o1 e k k' ho h1 ▸ hk)
        · exact h3 k ⟨hk, ho⟩
      rw [hs', retractIdents_entid.2 hr]
      by_cases ho : old e k
      · have hl : ∀ o k', (e, o, k') ∉ L := by
          intro o k' hm
          obtain ⟨-, h1, h2⟩ := (m3 e o k').1 hm
          exact h2 (n1 e k k' hk h1 ▸ ho)
        have ha : ∀ k', (e, k') ∉ A := by
          intro k' hm
          obtain ⟨⟨h1, h2⟩, -⟩ := (m1 e k').1 hm
          exact h2 (n1 e k k' hk h1 ▸ ho)
        rw [alterIdents_entid.2 hl, assertIdents_entid.2 ha, he0]
        exact (hold e k).2 ho
      · by_cases hex : ∃ o, old e o ∧ ¬ new e o
        · obtain ⟨o, hoo⟩ := hex
          exact alterIdents_entid.1 o k ((m3 e o k).2 ⟨hoo, hk, ho⟩)
            fun o' k' hm => n1 e k' k ((m3 e o' k').1 hm).2.1 hk
        · rw [not_exists] at hex
          have hl : ∀ o k', (e, o, k') ∉ L := fun o k' hm => hex o ((m3 e o k').1 hm).1
          rw [alterIdents_entid.2 hl]
          exact assertIdents_entid.1 k ((m1 e k).2 ⟨⟨hk, ho⟩, hex⟩)
            fun k' hm => n1 e k' k ((m1 e k').1 hm).1.1 hk
    intro k
    refine ⟨fun hg => ?_, hnew k⟩
    by_cases hex : ∃ k', new e k'
    · obtain ⟨k', hk'⟩ := hex
      have := hnew k' hk'
      rw [hg] at this
      cases this; exact hk'
    · exfalso
      rw [not_exists] at hex
      have ha : ∀ k', (e, k') ∉ A := fun k' hm => hex k' ((m1 e k').1 hm).1.1
      have hl : ∀ o k', (e, o, k') ∉ L := fun o k' hm => hex k' ((m3 e o k').1 hm).2.1
      have : AMap.get s'.entidMap e = none := by
        rw [hs']
        refine retractIdents_entid.1 ?_
        by_cases ho : ∃ o, old e o
        · obtain ⟨o, ho⟩ := ho
          exact Or.inl ⟨o, (m2 e o).2 ⟨⟨ho, hex o⟩, fun n hh => hex n hh.1⟩⟩
        · right
          rw [alterIdents_entid.2 hl, assertIdents_entid.2 ha, he0]
          cases hg : AMap.get s.entidMap e with
          | none => rfl
          | some o => exact absurd ⟨o, (hold e o).1 hg⟩ ho
      rw [this] at hg; cases hg
  · have hnew : ∀ e, new e k → AMap.get s'.identMap k = some e := by
      intro e hk
      have hlo : ∀ e' n, (e', k, n) ∉ L := by
        intro e' n hm
        obtain ⟨⟨h1, h2⟩, -⟩ := (m3 e' k n).1 hm
        exact h2 (hst k e' e h1 hk ▸ hk)
      have hr : ∀ e', (e', k) ∉ R := by
        intro e' hm
        obtain ⟨⟨h1, h2⟩, -⟩ := (m2 e' k).1 hm
        exact h2 (hst k e' e h1 hk ▸ hk)
      rw [hs', retractIdents_ident.2 hr]
      by_cases ho : old e k
      · have hl : ∀ e' o, (e', o, k) ∉ L := by
          intro e' o hm
          obtain ⟨-, h1, h2⟩ := (m3 e' o k).1 hm
          exact h2 (n2 e e' k hk h1 ▸ ho)
        have ha : ∀ e', (e', k) ∉ A := by
          intro e' hm
          obtain ⟨⟨h1, h2⟩, -⟩ := (m1 e' k).1 hm
          exact h2 (n2 e e' k hk h1 ▸ ho)
        rw [alterIdents_ident.2.2 hl hlo, assertIdents_ident.2 ha, hi0]
        exact (hold k e).2 ho
      · by_cases hex : ∃ o, old e o ∧ ¬ new e o
        · obtain ⟨o, hoo⟩ := hex
          exact alterIdents_ident.1 e o ((m3 e o k).2 ⟨hoo, hk, ho⟩)
            (fun e' o' hm => n2 e' e k ((m3 e' o' k).1 hm).2.1 hk) hlo
        · rw [not_exists] at hex
          have hl : ∀ e' o, (e', o, k) ∉ L := by
            intro e' o hm
            obtain ⟨h0, h1, -⟩ := (m3 e' o k).1 hm
            obtain rfl := n2 e e' k hk h1
            exact hex o h0
          rw [alterIdents_ident.2.2 hl hlo]
          exact assertIdents_ident.1 e ((m1 e k).2 ⟨⟨hk, ho⟩, hex⟩)
            fun e' hm => n2 e' e k ((m1 e' k).1 hm).1.1 hk
    intro e
    refine ⟨fun hg => ?_, hnew e⟩
    by_cases hex : ∃ e', new e' k
    · obtain ⟨e', he'⟩ := hex
      have := hnew e' he'
      rw [hg] at this
      cases this; exact he'
    · exfalso
      rw [not_exists] at hex
      have ha : ∀ e', (e', k) ∉ A := fun e' hm => hex e' ((m1 e' k).1 hm).1.1
      have hl : ∀ e' o, (e', o, k) ∉ L := fun e' o hm => hex e' ((m3 e' o k).1 hm).2.1
      have : AMap.get s'.identMap k = none := by
        rw [hs']
        refine retractIdents_ident.1 ?_
        by_cases ho : ∃ o, old o k
        · obtain ⟨o, ho⟩ := ho
          by_cases hn : ∃ n, new o n ∧ ¬ old o n
          · obtain ⟨n, hn⟩ := hn
            right
            exact alterIdents_ident.2.1 hl (Or.inl ⟨o, n, (m3 o k n).2 ⟨⟨ho, hex o⟩, hn⟩⟩)
          · rw [not_exists] at hn
            exact Or.inl ⟨o, (m2 o k).2 ⟨⟨ho, hex o⟩, hn⟩⟩
        · right
          rw [not_exists] at ho
          refine alterIdents_ident.2.1 hl (Or.inr ?_)
          rw [assertIdents_ident.2 ha, hi0]
          cases hg : AMap.get s.identMap k with
          | none => rfl
          | some o => exact absurd ((hold k o).1 hg) (ho o)
      rw [this] at hg; cases hg
  · rw [hrep] at hempty
    simp only [List.append_eq_nil_iff, AMap.keys, List.map_eq_nil_iff] at hempty
    obtain ⟨⟨ea, el⟩, er⟩ := hempty
    rw [ea] at c1; rw [el] at c3; rw [er] at c2
    simp only [List.not_mem_nil, false_iff] at c1 c2 c3
    have noA : ∀ n, ¬ (new e n ∧ ¬ old e n) := by
      intro n hh
      by_cases hex : ∃ o, old e o ∧ ¬ new e o
      · obtain ⟨o, ho⟩ := hex; exact c3 e o n ⟨ho, hh⟩
      · rw [not_exists] at hex; exact c1 e n ⟨hh, hex⟩
    have noR : ∀ o, ¬ (old e o ∧ ¬ new e o) := fun o hh => c2 e o ⟨hh, noA⟩
    constructor
    · intro ho
      by_cases hk : new e k
      · exact hk
      · exact absurd ⟨ho, hk⟩ (noR k)
    · intro hk
      by_cases ho : old e k
      · exact ho
      · exact absurd ⟨hk, ho⟩ (noA k)

/-- The entid-to-ident map is the `:db/ident` datoms. -/
def EntidsMatch (s : Schema) (rows : List Row) : Prop :=
  ∀ e k, AMap.get s.entidMap e = some k ↔ Has rows e DB_IDENT (.keyword k)

/-- The ident-to-entid map is the `:db/ident` datoms. -/
def IdentsMatch (s : Schema) (rows : List Row) : Prop :=
  ∀ k e, AMap.get s.identMap k = some e ↔ Has rows e DB_IDENT (.keyword k)

/-- The `idents` table is the `:db/ident` datoms. -/
def IdentsTable (vs : Views) (rows : List Row) : Prop :=
  ∀ e v, (e, v) ∈ vs.idents ↔ Has rows e DB_IDENT v

/-- No keyword passes from one entity to another. -/
def NoIdentMoves (rows rows' : List Row) : Prop :=
  ∀ k e e', Has rows e DB_IDENT (.keyword k) → Has rows' e' DB_IDENT (.keyword k) → e = e'

theorem mem_identsOf {rows : List Row} {e v} : (e, v) ∈ identsOf rows ↔ Has rows e DB_IDENT v := by
  unfold identsOf Has
  simp only [List.mem_map, List.mem_filter, decide_eq_true_eq, Prod.mk.injEq]
  constructor
  · rintro ⟨r, ⟨hr, ha⟩, he, hv⟩; exact ⟨r, hr, he, ha, hv⟩
  · rintro ⟨r, hr, he, ha, hv⟩; exact ⟨r, ⟨hr, ha⟩, he, hv⟩

theorem amap_same {K V : Type} [DecidableEq K] [DecidableEq V] {m m' : AMap K V}
    (h : AMap.same m m' = true) (k : K) : AMap.get m k = AMap.get m' k := by
  simp only [AMap.same, Bool.and_eq_true, List.all_eq_true, decide_eq_true_eq] at h
  cases hg : AMap.get m k with
  | some v => exact (h.1 _ (AMap.get_some_mem hg)).symm
  | none =>
    cases hg' : AMap.get m' k with
    | none => rfl
    | some v => have := h.2 _ (AMap.get_some_mem hg'); rw [hg] at this; cases this

theorem metadataAssertions_nodup {lr : List LogRow} {tx : Entid} (hn : lr.Nodup)
    (hs : ∀ l ∈ lr, l.tx = tx ∧ l.timeline = 0) : (metadataAssertions lr).Nodup := by
  unfold metadataAssertions
  rw [(sortQuads_perm _).nodup_iff]
  unfold List.Nodup
  rw [List.pairwise_map]
  refine List.Pairwise.imp_of_mem ?_ (hn.filter _)
  intro l l' hl hl' hne heq
  obtain ⟨h1, h2⟩ := hs l (List.mem_filter.1 hl).1
  obtain ⟨h3, h4⟩ := hs l' (List.mem_filter.1 hl').1
  apply hne
  cases l; cases l'
  simp only [Prod.mk.injEq] at heq h1 h2 h3 h4
  obtain ⟨rfl, rfl, rfl, rfl⟩ := heq
  subst h1 h2 h3 h4
  rfl

theorem mem_metadataAssertions {st st' : Store} {tx lr} (h : ApplySpec st tx st' lr) {e a v}
    (ha : a ∈ metadataList) :
    ((e, a, v, true) ∈ metadataAssertions lr ↔ Has st'.rows e a v ∧ ¬ Has st.rows e a v) ∧
    ((e, a, v, false) ∈ metadataAssertions lr ↔ Has st.rows e a v ∧ ¬ Has st'.rows e a v) := by
  unfold metadataAssertions
  simp only [mem_sortQuads, List.mem_map, List.mem_filter, decide_eq_true_eq, Prod.mk.injEq]
  constructor
  · constructor
    · rintro ⟨l, ⟨hl, -⟩, rfl, rfl, rfl, hb⟩; exact h.added l hl hb
    · rintro ⟨h1, h2⟩; exact ⟨_, ⟨h.addedAll e a v h1 h2, ha⟩, rfl, rfl, rfl, rfl⟩
  · constructor
    · rintro ⟨l, ⟨hl, -⟩, rfl, rfl, rfl, hb⟩; exact h.retracted l hl hb
    · rintro ⟨h1, h2⟩; exact ⟨_, ⟨h.retractedAll e a v h1 h2, ha⟩, rfl, rfl, rfl, rfl⟩

/-- The effect of one transaction on the ident maps and on the table. -/
theorem identRows_step {db sfm now terms ids db' rep} (hi : RowsInv db.schema db.store.rows)
    (ht : TxInstantOk db.schema) (hia : IdentAttr db.schema)
    (h : transactTermsWith db sfm now terms ids .materializeAndCommit = .ok (db', rep)) :
    IdentRows db'.store.rows := by
  obtain ⟨T⟩ := transact_trace h
  have rn := (rowsInv_apply hi (T.qok ht) T.applied).identRows hia
  refine ⟨?_, ?_, ?_⟩ <;> simp only [T.has_iff]
  · exact rn.one
  · exact rn.unique
  · exact rn.keyword

theorem idents_step {db sfm now terms ids db' rep} (hi : RowsInv db.schema db.store.rows)
    (ht : TxInstantOk db.schema) (hia : IdentAttr db.schema)
    (h : transactTermsWith db sfm now terms ids .materializeAndCommit = .ok (db', rep)) :
    (EntidsMatch sfm db.store.rows → EntidsMatch db'.schema db'.store.rows) ∧
    (IdentsMatch sfm db.store.rows → NoIdentMoves db.store.rows db'.store.rows →
      IdentsMatch db'.schema db'.store.rows) ∧
    (EntidsMatch sfm db.store.rows → IdentsTable db.views db.store.rows →
      IdentsTable db'.views db'.store.rows) := by
  obtain ⟨T⟩ := transact_trace h
  have hi' := rowsInv_apply hi (T.qok ht) T.applied
  have hap := applySpec hi.uniq T.applied
  have ro := hi.identRows hia
  have rn := hi'.identRows hia
  simp only [EntidsMatch, IdentsMatch, IdentsTable, NoIdentMoves, T.has_iff]
  rcases T.md with ⟨hm, -⟩ | ⟨hs, -, hv, hq⟩
  · unfold applyMetadata at hm
    rw [Res.bind_eq_ok] at hm
    obtain ⟨⟨s1, rp⟩, h1, hm⟩ := hm
    simp only at hm
    have key := updateSchema_idents (old := fun e k => Has db.store.rows e DB_IDENT (.keyword k))
      (new := fun e k => Has T.store.rows e DB_IDENT (.keyword k)) h1
      (metadataAssertions_nodup hap.nodup hap.stamp)
      (fun e k => (mem_metadataAssertions hap (by decide)).1)
      (fun e k => (mem_metadataAssertions hap (by decide)).2)
      (fun e k k' h h' => by simpa using ro.one e _ _ h h')
      (fun e k k' h h' => by simpa using rn.one e _ _ h h')
      (fun e e' k h h' => rn.unique e e' _ h h')
    obtain ⟨k1, k2, k3⟩ := key
    have same : (∀ e k, Has db.store.rows e DB_IDENT (.keyword k) ↔ Has T.store.rows e DB_IDENT (.keyword k)) →
        ∀ e v, Has db.store.rows e DB_IDENT v ↔ Has T.store.rows e DB_IDENT v := by
      intro hk e v
      constructor
      · intro hh; obtain ⟨k, rfl⟩ := ro.keyword e v hh; exact (hk e k).1 hh
      · intro hh; obtain ⟨k, rfl⟩ := rn.keyword e v hh; exact (hk e k).2 hh
    split at hm
    · rw [Res.bind_eq_ok] at hm
      obtain ⟨⟨rows1, views1⟩, h2, hm⟩ := hm
      simp only [Res.pure_eq, Res.ok.injEq, Prod.mk.injEq] at hm
      obtain ⟨rfl, -, rfl⟩ := hm
      refine ⟨k1, k2, fun hold htab e v => ?_⟩
      unfold updateMetadata at h2
      cases ha : applyAllAlterations db'.schema rp.altered T.store.rows with
      | ok rows2 =>
        simp only [ha, Res.ok.injEq, Prod.mk.injEq] at h2
        obtain ⟨-, h2⟩ := h2
        rw [← h2]
        cases hie : rp.identsAltered with
        | nil =>
          have : (e, v) ∈ db.views.idents ↔ Has T.store.rows e DB_IDENT v := by
            rw [htab, same (k3 hie)]
          rw [← this]
          simp only [List.isEmpty_nil, Bool.and_true, if_true]
          split <;> rfl
        | cons x r =>
          simp only [List.isEmpty_cons, Bool.and_false, Bool.false_eq_true, if_false]
          exact mem_identsOf
      | err er => simp [ha] at h2
      | panic => simp [ha] at h2
    · rename_i hsame
      simp only [Bool.not_eq_true, Bool.not_eq_false'] at hsame
      simp only [Res.pure_eq, Res.ok.injEq, Prod.mk.injEq] at hm
      obtain ⟨rfl, -, hv⟩ := hm
      unfold Schema.same at hsame
      simp only [Bool.and_eq_true] at hsame
      obtain ⟨⟨q1, q2⟩, -⟩ := hsame
      refine ⟨fun hold e k => ?_, fun hold hst k e => ?_, fun hold htab e v => ?_⟩
      · rw [← amap_same q1]; exact k1 hold e k
      · rw [← amap_same q2]; exact k2 hold hst k e
      · rw [← hv, htab]
        refine same (fun e k => ?_) e v
        rw [← k1 hold, amap_same q1, hold]
  · -- nothing about idents was touched
    have hsame : ∀ e v, Has T.store.rows e DB_IDENT v ↔ Has db.store.rows e DB_IDENT v := by
      intro e v
      rw [← T.has_iff]
      refine T.unchanged (fun q hm _ ha => ?_) v
      have := hq q hm
      rw [ha] at this
      exact absurd this (by decide)
    rw [hs, hv]
    simp only [hsame]
    exact ⟨id, fun h _ => h, fun _ h => h⟩

end Mentat
