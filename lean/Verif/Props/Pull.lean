import Verif.Proofs.Pull
import Verif.Props.Datoms
import Verif.Props.Schema
import Verif.Props.Sync
import Mathlib.Data.List.Forall2
/-
C54: pulling attributes for entities yields, for each entity, exactly the requested attributes it has,
under the requested names, with the values in the store, and nothing else.
-/
namespace Mentat

/-! ### Preparing -/

theorem pullName_ok {s : Schema} {a : Entid} {n : Keyword} (h : AMap.get s.entidMap a = some n) :
    pullName s a = .ok n := by unfold pullName; rw [h]

theorem wantAll_total {s : Schema} : ∀ {l : List Entid} {p : Puller},
    (∀ a ∈ l, ∃ n, AMap.get s.entidMap a = some n) → ∃ p', Puller.wantAll s l p = .ok p' := by
  intro l
  induction l with
  | nil => intro p _; exact ⟨p, rfl⟩
  | cons a r ih =>
    intro p h
    obtain ⟨n, hn⟩ := h a List.mem_cons_self
    rw [Puller.wantAll, pullName_ok hn]
    exact ih fun x hx => h x (List.mem_cons_of_mem _ hx)

theorem wantOne_total {s : Schema} {p : Puller} {x : PullConcrete} {al : Option Keyword}
    (hn : ∀ a, x = .entid a → al = none → ∃ n, AMap.get s.entidMap a = some n)
    (hi : p.dbIdAlias = none ∨ ∀ n, ¬ AsksId (.attr x al) n) : ∃ p', p.wantOne s x al = .ok p' := by
  unfold Puller.wantOne
  cases x with
  | ident k =>
    simp only
    split
    · rename_i hk
      subst hk
      have : p.dbIdAlias = none := by
        refine hi.resolve_right fun h => ?_
        cases al with
        | none => exact h _ .plain
        | some n => exact h _ .as
      simp [this]
    · split
      · exact ⟨_, rfl⟩
      · exact ⟨_, rfl⟩
  | entid a =>
    cases al with
    | some n => exact ⟨_, rfl⟩
    | none =>
      obtain ⟨n, h⟩ := hn a rfl rfl
      simp only
      rw [pullName_ok h]
      exact ⟨_, rfl⟩

theorem prepareFrom_total {s : Schema} : ∀ {specs : List PullSpec} {p : Puller},
    (∀ a, .attr (.entid a) none ∈ specs → ∃ n, AMap.get s.entidMap a = some n) →
    (.wildcard ∈ specs → ∀ a ∈ AMap.keys s.attributeMap, ∃ n, AMap.get s.entidMap a = some n) →
    specs.Pairwise (fun sp sp' => ¬ ((∃ n, AsksId sp n) ∧ ∃ n, AsksId sp' n)) →
    (p.dbIdAlias = none ∨ ∀ sp ∈ specs, ∀ n, ¬ AsksId sp n) →
    ∃ p', Puller.prepareFrom s specs p = .ok p' := by
  intro specs
  induction specs with
  | nil => intro p _ _ _ _; exact ⟨p, rfl⟩
  | cons sp r ih =>
    intro p h1 h2 h3 h4
    cases sp with
    | wildcard =>
      rw [Puller.prepareFrom]
      exact wantAll_total (h2 List.mem_cons_self)
    | attr x al =>
      rw [Puller.prepareFrom]
      obtain ⟨p1, hp⟩ := wantOne_total (s := s) (p := p) (x := x) (al := al)
        (by rintro a rfl rfl; exact h1 a List.mem_cons_self)
        (h4.imp id fun h => h _ List.mem_cons_self)
      rw [hp]
      rw [List.pairwise_cons] at h3
      refine ih (fun a ha => h1 a (List.mem_cons_of_mem _ ha))
        (fun hw => h2 (List.mem_cons_of_mem _ hw)) h3.2 ?_
      have hpr := prepared_one hp
      cases hd : p1.dbIdAlias with
      | none => exact .inl rfl
      | some m =>
        right
        intro sp hsp n hn
        rcases (hpr.id m).mp hd with hm | hm
        · rcases h4 with h4 | h4
          · rw [h4] at hm; cases hm
          · exact h4 sp (List.mem_cons_of_mem _ hsp) n hn
        · exact h3.1 sp hsp ⟨⟨m, hm⟩, n, hn⟩

/-- Specs are accepted unless they ask for the entity itself twice, or for an attribute without a name
(by entid and without an alias, or by a wildcard). -/
theorem C54_accepted {s : Schema} {specs : List PullSpec}
    (hn : ∀ a, .attr (.entid a) none ∈ specs → ∃ n, AMap.get s.entidMap a = some n)
    (hw : .wildcard ∈ specs → ∀ a ∈ AMap.keys s.attributeMap, ∃ n, AMap.get s.entidMap a = some n)
    (hi : specs.Pairwise fun sp sp' => ¬ ((∃ n, AsksId sp n) ∧ ∃ n, AsksId sp' n)) :
    ∃ p, Puller.prepare s specs = .ok p :=
  prepareFrom_total hn hw hi (.inl rfl)

/-! ### Pulling -/

/-- C54, for specs that are unambiguous.  Missing for the full property: specs where an attribute has
several names or several attributes have one (`C54_fails_two_names`, `C54_fails_same_name`,
`C54_fails_id_name`), or where something follows the wildcard (`C54_fails_wildcard`). -/
theorem C54_pull_partial {db : Db} (hr : ReachKept db) {specs : List PullSpec} {p : Puller}
    (hp : Puller.prepare db.schema specs = .ok p) (hu : Unambiguous db.schema specs) (es : List Entid) :
    ∃ res, p.pull db.schema db.store.rows es = .ok res ∧ AMap.WF res ∧
      (∀ e ∈ es, Correct db.schema db.store.rows specs e ((AMap.get res e).getD [])) ∧
      ∀ e, (∃ m, AMap.get res e = some m) ↔ e ∈ es ∧ ∃ n b, Shows db.schema db.store.rows specs e n b := by
  obtain ⟨c, res, hc, hres, hputs⟩ := pull_puts (p := p) (s := db.schema) (rows := db.store.rows) (es := es)
  have hpr := prepared_from hu.last hp
  have hwf : AMap.WF p.names := hpr.wf AMap.wf_nil
  have huq := (rowsInv_reach hr).1.uniq
  -- what is put is what is to be shown
  have sound : ∀ e n b, res.at e n = some b → e ∈ es ∧ Shows db.schema db.store.rows specs e n b := by
    intro e n b hb
    rcases hputs.sound e n b hb with hb | ⟨he, ⟨hd, rfl⟩ | ⟨a, ha, hb⟩⟩
    · simp [PullResults.at] at hb
    · rcases (hpr.id n).mp hd with hd | ⟨sp, hs, hd⟩
      · cases hd
      · exact ⟨he, .id hs hd⟩
    · rcases hpr.names a n (AMap.mem_get hwf ha) with hn | ⟨sp, hs, hn⟩
      · simp at hn
      · exact ⟨he, .attr hs hn (bindingFor_holds huq hc he hb)⟩
  have full : ∀ e n b, e ∈ es → Shows db.schema db.store.rows specs e n b → ∃ b', res.at e n = some b' := by
    intro e n b he hb
    cases hb with
    | id hs hi =>
      exact hputs.full e n _ (.inl ⟨he, .inl ⟨(hpr.id n).mpr (.inr ⟨_, hs, hi⟩), rfl⟩⟩)
    | @attr sp a _ hs ha hh =>
      obtain ⟨n', hn'⟩ := hpr.full a n (.inl ⟨sp, hs, ha⟩)
      have : n' = n := by
        rcases hpr.names a n' hn' with hn | ⟨sp', hs', hn⟩
        · simp at hn
        · exact hu.oneName _ hs' _ hs a _ _ hn ha
      subst this
      obtain ⟨b', hb'⟩ := bindingFor_some hc he ((hpr.attrs a).mpr (.inr ⟨_, sp, hs, ha⟩)) hh
      exact hputs.full e n' b' (.inl ⟨he, .inr ⟨a, AMap.get_some_mem hn', hb'⟩⟩)
  have same : ∀ e n b b', Shows db.schema db.store.rows specs e n b →
      Shows db.schema db.store.rows specs e n b' → b.Same b' := by
    intro e n b b' h h'
    cases h with
    | id hs hi =>
      cases h' with
      | id hs' hi' => exact .scalar _
      | attr hs' ha' hh' => exact absurd ha' (hu.idName _ hs _ hs' _ _ hi)
    | attr hs ha hh =>
      cases h' with
      | id hs' hi' => exact absurd ha (hu.idName _ hs' _ hs _ _ hi')
      | attr hs' ha' hh' =>
        rw [hu.oneAttr _ hs _ hs' _ _ _ ha ha'] at hh
        exact hh.same (fun at_ v v' => C14_one_partial hr _ _ v v' at_) hh'
  have of_same : ∀ e n b b', Shows db.schema db.store.rows specs e n b' → b.Same b' →
      Shows db.schema db.store.rows specs e n b := by
    intro e n b b' h hs
    cases h with
    | id h1 h2 => cases hs; exact .id h1 h2
    | attr h1 h2 h3 => exact .attr h1 h2 (h3.of_same hs)
  have hat : ∀ e n, AMap.get ((AMap.get res e).getD []) n = res.at e n := by
    intro e n
    unfold PullResults.at
    cases AMap.get res e <;> rfl
  refine ⟨res, hres, hputs.wf AMap.wf_nil, ?_, ?_⟩
  · intro e he n b
    rw [hat]
    constructor
    · intro h
      obtain ⟨b', hb'⟩ := full e n b he h
      exact ⟨b', hb', same e n b b' h (sound e n b' hb').2⟩
    · rintro ⟨b', hb', hs⟩
      exact of_same e n b b' (sound e n b' hb').2 hs
  · intro e
    constructor
    · rintro ⟨m, hm⟩
      obtain ⟨n, b, hb⟩ := hputs.noEmpty (fun e x hx => by simp at hx) e m hm
      obtain ⟨he, h⟩ := sound e n b (by unfold PullResults.at; rw [hm]; exact hb)
      exact ⟨he, n, b, h⟩
    · rintro ⟨he, n, b, h⟩
      obtain ⟨b', hb'⟩ := full e n b he h
      unfold PullResults.at at hb'
      cases hm : AMap.get res e with
      | none => rw [hm] at hb'; cases hb'
      | some m => exact ⟨m, rfl⟩

/-! ### Attributes by entid -/

theorem asks_entids {s : Schema} {attrs : List Entid} {sp : PullSpec} {a : Entid} {n : Keyword}
    (h : sp ∈ attrs.map fun a => PullSpec.attr (.entid a) none) (ha : Asks s sp a n) :
    AMap.get s.entidMap a = some n := by
  obtain ⟨a', -, rfl⟩ := List.mem_map.mp h
  cases ha
  assumption

theorem asksId_entids {attrs : List Entid} {sp : PullSpec} {n : Keyword}
    (h : sp ∈ attrs.map fun a => PullSpec.attr (.entid a) none) : ¬ AsksId sp n := by
  obtain ⟨a', -, rfl⟩ := List.mem_map.mp h
  intro h
  cases h

theorem noneAfter_entids : ∀ attrs : List Entid,
    NoneAfterWildcard (attrs.map fun a => PullSpec.attr (.entid a) none)
  | [] => trivial
  | _ :: r => noneAfter_entids r

/-- Specs that only name attributes by entid are never ambiguous where idents are. -/
theorem unambiguous_entids {s : Schema} (h : InverseIdents s) (attrs : List Entid) :
    Unambiguous s (attrs.map fun a => PullSpec.attr (.entid a) none) where
  last := noneAfter_entids attrs
  oneName sp hs sp' hs' a n n' ha ha' := by
    have h1 := asks_entids hs ha
    have h2 := asks_entids hs' ha'
    rw [h1] at h2
    exact Option.some.inj h2
  oneAttr sp hs sp' hs' a a' n ha ha' := by
    have h1 := (h _ _).mpr (asks_entids hs ha)
    have h2 := (h _ _).mpr (asks_entids hs' ha')
    rw [h1] at h2
    exact Option.some.inj h2
  idName sp hs sp' hs' a n ha := absurd ha (asksId_entids hs)

/-- and neither is a lone wildcard. -/
theorem unambiguous_wildcard {s : Schema} (h : InverseIdents s) : Unambiguous s [.wildcard] where
  last := rfl
  oneName sp hs sp' hs' a n n' ha ha' := by
    rw [List.mem_singleton.mp hs] at ha
    rw [List.mem_singleton.mp hs'] at ha'
    cases ha with
    | wildcard _ h1 => cases ha' with | wildcard _ h2 => rw [h1] at h2; exact Option.some.inj h2
  oneAttr sp hs sp' hs' a a' n ha ha' := by
    rw [List.mem_singleton.mp hs] at ha
    rw [List.mem_singleton.mp hs'] at ha'
    cases ha with
    | wildcard _ h1 =>
      cases ha' with
      | wildcard _ h2 =>
        have h1 := (h _ _).mpr h1
        have h2 := (h _ _).mpr h2
        rw [h1] at h2
        exact Option.some.inj h2
  idName sp hs sp' hs' a n ha := by
    rw [List.mem_singleton.mp hs] at ha
    exact absurd ha (asksId_wildcard n)

/-- C54 for `pull_attributes_for_entity`: any attributes with idents, in histories that keep idents
unambiguous, without further conditions. -/
theorem C54_entity {db : Db} (hr : ReachIdents db) {attrs : List Entid}
    (hn : ∀ a ∈ attrs, ∃ n, AMap.get db.schema.entidMap a = some n) (e : Entid) :
    ∃ m, pullForEntity db.schema db.store.rows e attrs = .ok m ∧
      ∀ n b, (∃ a ∈ attrs, AMap.get db.schema.entidMap a = some n ∧
          Holds db.schema db.store.rows e a b) ↔ ∃ b', AMap.get m n = some b' ∧ b.Same b' := by
  obtain ⟨p, hp⟩ := C54_accepted (s := db.schema) (specs := attrs.map fun a => PullSpec.attr (.entid a) none)
    (by
      intro a ha
      obtain ⟨a', ha', h⟩ := List.mem_map.mp ha
      cases h
      exact hn a ha')
    (by intro h; obtain ⟨_, -, h⟩ := List.mem_map.mp h; cases h)
    (by
      rw [List.pairwise_map]
      refine List.pairwise_of_forall fun a a' hh => ?_
      obtain ⟨⟨n, h⟩, -⟩ := hh
      cases h)
  obtain ⟨res, hres, hwf, hc, hk⟩ := C54_pull_partial hr.kept hp
    (unambiguous_entids (C35_inverse_partial hr) attrs) [e]
  have hshow : ∀ n b, (∃ a ∈ attrs, AMap.get db.schema.entidMap a = some n ∧
      Holds db.schema db.store.rows e a b) ↔ Shows db.schema db.store.rows
        (attrs.map fun a => PullSpec.attr (.entid a) none) e n b := by
    intro n b
    constructor
    · rintro ⟨a, ha, h1, h2⟩
      exact .attr (List.mem_map.mpr ⟨a, ha, rfl⟩) (.entid h1) h2
    · intro h
      cases h with
      | id hs hi => exact absurd hi (asksId_entids hs)
      | attr hs ha hh =>
        obtain ⟨a', ha', rfl⟩ := List.mem_map.mp hs
        cases ha with | entid h1 => exact ⟨_, ha', h1, hh⟩
  unfold pullForEntity pullForEntities
  rw [hp]
  simp only [Res.bind, hres]
  have hce := hc e List.mem_cons_self
  cases res with
  | nil =>
    refine ⟨[], rfl, fun n b => ?_⟩
    rw [hshow]
    exact hce n b
  | cons x r =>
    obtain ⟨k, vs⟩ := x
    have hke : k = e := by
      have := ((hk k).mp ⟨vs, by simp⟩).1
      simpa using this
    subst hke
    refine ⟨vs, by simp, fun n b => ?_⟩
    rw [hshow]
    have := hce n b
    simpa using this

/-! ### Pull in queries -/

theorem collectEntities_ok {i : Nat} : ∀ {values : List (List TypedValue)},
    (∀ row ∈ values, ∃ e, row[i]? = some (.ref e)) →
    ∃ es, collectEntities i values = .ok es ∧ es.Nodup ∧
      ∀ e, e ∈ es ↔ ∃ row ∈ values, row[i]? = some (TypedValue.ref e) := by
  intro values
  induction values with
  | nil => intro _; exact ⟨[], rfl, List.nodup_nil, by simp⟩
  | cons row r ih =>
    intro h
    obtain ⟨e, he⟩ := h row List.mem_cons_self
    obtain ⟨es, hes, hnd, hm⟩ := ih fun x hx => h x (List.mem_cons_of_mem _ hx)
    refine ⟨setInsert es e, ?_, nodup_setInsert hnd, ?_⟩
    · rw [collectEntities, he, hes]; rfl
    · intro e'
      rw [mem_setInsert_iff, hm]
      constructor
      · rintro (⟨row', h1, h2⟩ | rfl)
        · exact ⟨row', List.mem_cons_of_mem _ h1, h2⟩
        · exact ⟨row, List.mem_cons_self, he⟩
      · rintro ⟨row', h1, h2⟩
        rcases List.mem_cons.mp h1 with rfl | h1
        · rw [he] at h2; cases h2; exact .inr rfl
        · exact .inl ⟨row', h1, h2⟩

/-- The pull element's specs are accepted and unambiguous. -/
def Accepted (s : Schema) (specs : List PullSpec) : Prop :=
  (∃ p, Puller.prepare s specs = .ok p) ∧ Unambiguous s specs

theorem pullConsumer_ok {db : Db} (hr : ReachKept db) {specs : List PullSpec}
    (ha : Accepted db.schema specs) {i : Nat} {values : List (List TypedValue)}
    (hv : ∀ row ∈ values, ∃ e, row[i]? = some (.ref e)) :
    ∃ m, pullConsumer db.schema db.store.rows i specs values = .ok m ∧ AMap.WF m ∧
      (∀ row ∈ values, ∀ e, row[i]? = some (TypedValue.ref e) →
        Correct db.schema db.store.rows specs e ((AMap.get m e).getD [])) ∧
      ∀ e, (∃ x, AMap.get m e = some x) ↔ (∃ row ∈ values, row[i]? = some (TypedValue.ref e)) ∧
        ∃ n b, Shows db.schema db.store.rows specs e n b := by
  obtain ⟨⟨p, hp⟩, hu⟩ := ha
  obtain ⟨es, hes, -, hm⟩ := collectEntities_ok hv
  obtain ⟨res, hres, hwf, hc, hk⟩ := C54_pull_partial hr hp hu (sortBy id es)
  refine ⟨res, ?_, hwf, ?_, ?_⟩
  · unfold pullConsumer
    rw [hp]
    simp only [Res.bind, hes, hres]
  · intro row hrow e he
    exact hc e (by rw [mem_sortBy, hm]; exact ⟨row, hrow, he⟩)
  · intro e
    rw [hk, mem_sortBy, hm]

/-- What a cell of a row becomes: a pull element's cell the map of its entity, another cell itself. -/
def CellOk (s : Schema) (rows : List Row) (pulls : List (Nat × List PullSpec)) (i : Nat) (v : TypedValue)
    (c : PullCell) : Prop :=
  (∀ specs, (i, specs) ∈ pulls → ∃ e m, v = .ref e ∧ c = .map m ∧ Correct s rows specs e m) ∧
  ((∀ specs, (i, specs) ∉ pulls) → c = .val v)

theorem length_expandRow : ∀ (ms : List (Nat × PullResults)) (row : List PullCell),
    (expandRow row ms).length = row.length := by
  intro ms
  induction ms with
  | nil => intro row; rfl
  | cons x r ih => intro row; rw [expandRow, ih]; simp

theorem expandRow_other : ∀ {ms : List (Nat × PullResults)} {row : List PullCell} {i : Nat},
    (∀ m, (i, m) ∉ ms) → (expandRow row ms)[i]? = row[i]? := by
  intro ms
  induction ms with
  | nil => intro row i _; rfl
  | cons x r ih =>
    obtain ⟨j, m⟩ := x
    intro row i h
    rw [expandRow, ih fun m' hm' => h m' (List.mem_cons_of_mem _ hm')]
    have : j ≠ i := by rintro rfl; exact h m List.mem_cons_self
    rw [List.getElem?_modify]
    simp [this]

theorem expandRow_at : ∀ {ms : List (Nat × PullResults)} {row : List PullCell} {i : Nat} {m : PullResults},
    (ms.map (·.1)).Nodup → (i, m) ∈ ms → (expandRow row ms)[i]? = row[i]?.map (expandCell m) := by
  intro ms
  induction ms with
  | nil => intro row i m _ h; simp at h
  | cons x r ih =>
    obtain ⟨j, m'⟩ := x
    intro row i m hn h
    rw [List.map_cons, List.nodup_cons] at hn
    rw [expandRow]
    rcases List.mem_cons.mp h with h | h
    · cases h
      rw [expandRow_other fun m' hm' => hn.1 (List.mem_map.mpr ⟨_, hm', rfl⟩), List.getElem?_modify]
      simp
    · have : j ≠ i := by rintro rfl; exact hn.1 (List.mem_map.mpr ⟨_, h, rfl⟩)
      rw [ih hn.2 h, List.getElem?_modify]
      simp [this]

theorem runPulls_ok {db : Db} (hr : ReachKept db) {values : List (List TypedValue)} :
    ∀ {pulls : List (Nat × List PullSpec)},
    (∀ i specs, (i, specs) ∈ pulls → Accepted db.schema specs ∧
      ∀ row ∈ values, ∃ e, row[i]? = some (.ref e)) →
    ∃ ms, runPulls db.schema db.store.rows values pulls = .ok ms ∧
      List.Forall₂ (fun (p : Nat × List PullSpec) (q : Nat × PullResults) => p.1 = q.1 ∧
        ∀ row ∈ values, ∀ e, row[p.1]? = some (TypedValue.ref e) →
        Correct db.schema db.store.rows p.2 e ((AMap.get q.2 e).getD [])) pulls ms := by
  intro pulls
  induction pulls with
  | nil => intro _; exact ⟨[], rfl, .nil⟩
  | cons x r ih =>
    obtain ⟨i, specs⟩ := x
    intro h
    obtain ⟨ha, hv⟩ := h i specs List.mem_cons_self
    obtain ⟨m, hm, -, hc, -⟩ := pullConsumer_ok hr ha hv
    obtain ⟨ms, hms, hf⟩ := ih fun i specs hi => h i specs (List.mem_cons_of_mem _ hi)
    refine ⟨(i, m) :: ms, ?_, .cons ⟨rfl, hc⟩ hf⟩
    rw [runPulls, hm]
    simp only [Res.bind, hms]

theorem forall₂_keys {A B : Type} {R : Nat × A → Nat × B → Prop} (hR : ∀ x y, R x y → x.1 = y.1) :
    ∀ {l : List (Nat × A)} {l' : List (Nat × B)}, List.Forall₂ R l l' → l.map (·.1) = l'.map (·.1) := by
  intro l l' h
  induction h with
  | nil => rfl
  | cons hxy _ ih => rw [List.map_cons, List.map_cons, hR _ _ hxy, ih]

theorem forall₂_mem {A B : Type} {R : A → B → Prop} :
    ∀ {l : List A} {l' : List B}, List.Forall₂ R l l' → ∀ {x}, x ∈ l → ∃ y ∈ l', R x y := by
  intro l l' h
  induction h with
  | nil => intro x hx; simp at hx
  | cons hxy _ ih =>
    intro x hx
    rcases List.mem_cons.mp hx with rfl | hx
    · exact ⟨_, List.mem_cons_self, hxy⟩
    · obtain ⟨y, hy, h⟩ := ih hx
      exact ⟨y, List.mem_cons_of_mem _ hy, h⟩

/-- C54 for `[:find ?x (pull ?y [..]) ..]`: each row of the query has, in place of a pulled entity, the
map of that entity, empty if it has nothing of what is asked for; every other cell is kept. -/
theorem C54_rel_partial {db : Db} (hr : ReachKept db) {pulls : List (Nat × List PullSpec)}
    {values : List (List TypedValue)} (hd : (pulls.map (·.1)).Nodup)
    (h : ∀ i specs, (i, specs) ∈ pulls → Accepted db.schema specs ∧
      ∀ row ∈ values, ∃ e, row[i]? = some (.ref e)) :
    ∃ out, pullRel db.schema db.store.rows pulls values = .ok out ∧
      List.Forall₂ (fun (row : List TypedValue) (o : List PullCell) => o.length = row.length ∧
        ∀ i v c, row[i]? = some v → o[i]? = some c → CellOk db.schema db.store.rows pulls i v c)
        values out := by
  obtain ⟨ms, hms, hf⟩ := runPulls_ok hr h
  refine ⟨_, by unfold pullRel; rw [hms]; rfl, ?_⟩
  rw [List.forall₂_map_right_iff, List.forall₂_same]
  intro row hrow
  refine ⟨by rw [length_expandRow, List.length_map], ?_⟩
  have hk := forall₂_keys (fun x y hxy => hxy.1) hf
  intro i v c hv hc
  constructor
  · intro specs hs
    obtain ⟨⟨j, m⟩, hm, hij, hcor⟩ := forall₂_mem hf hs
    cases hij
    obtain ⟨e, he⟩ := (h i specs hs).2 row hrow
    rw [he] at hv
    cases hv
    rw [expandRow_at (by rw [← hk]; exact hd) hm, List.getElem?_map, he] at hc
    simp only [Option.map_some, Option.some.injEq, expandCell] at hc
    exact ⟨e, _, rfl, hc.symm, hcor row hrow e he⟩
  · intro hno
    rw [expandRow_other, List.getElem?_map, hv] at hc
    · simpa using hc.symm
    · intro m hm
      have : i ∈ pulls.map (·.1) := by rw [hk]; exact List.mem_map.mpr ⟨_, hm, rfl⟩
      obtain ⟨⟨j, specs⟩, hj, rfl⟩ := List.mem_map.mp this
      exact hno specs hj

/-- The same for a tuple. -/
theorem C54_tuple_partial {db : Db} (hr : ReachKept db) {pulls : List (Nat × List PullSpec)}
    {row : List TypedValue} (hd : (pulls.map (·.1)).Nodup)
    (h : ∀ i specs, (i, specs) ∈ pulls → Accepted db.schema specs ∧ ∃ e, row[i]? = some (.ref e)) :
    ∃ o, pullTuple db.schema db.store.rows pulls (some row) = .ok (some o) ∧ o.length = row.length ∧
      ∀ i v c, row[i]? = some v → o[i]? = some c → CellOk db.schema db.store.rows pulls i v c := by
  obtain ⟨out, ho, hf⟩ := C54_rel_partial hr (values := [row]) hd
    (fun i specs hi => ⟨(h i specs hi).1, by simpa using (h i specs hi).2⟩)
  unfold pullRel at ho
  cases hms : runPulls db.schema db.store.rows [row] pulls with
  | err e => rw [hms] at ho; cases ho
  | panic => rw [hms] at ho; cases ho
  | ok ms =>
    rw [hms] at ho
    simp only [Res.bind, List.map_cons, List.map_nil, Res.ok.injEq] at ho
    subst ho
    cases hf with
    | cons hx _ => exact ⟨_, by unfold pullTuple; simp only; rw [hms]; rfl, hx⟩

/-- and for a single entity. -/
theorem C54_scalar_partial {db : Db} (hr : ReachKept db) {specs : List PullSpec}
    (ha : Accepted db.schema specs) (e : Entid) :
    ∃ m, pullScalar db.schema db.store.rows specs (some (.ref e)) = .ok (some m) ∧
      Correct db.schema db.store.rows specs e m := by
  obtain ⟨⟨p, hp⟩, hu⟩ := ha
  obtain ⟨res, hres, -, hc, -⟩ := C54_pull_partial hr hp hu [e]
  refine ⟨_, ?_, hc e List.mem_cons_self⟩
  unfold pullScalar
  rw [hp]
  simp only [Res.bind, cellEntity, hres]

/-- A collection has the maps of the entities that have anything that is asked for, once each, by
entid.  Missing for the full property: entities that have nothing are left out
(`C54_fails_coll`). -/
theorem C54_coll_partial {db : Db} (hr : ReachKept db) {specs : List PullSpec}
    (ha : Accepted db.schema specs) {values : List TypedValue} (hv : ∀ v ∈ values, ∃ e, v = .ref e) :
    ∃ out es, pullColl db.schema db.store.rows specs values = .ok out ∧
      es.Pairwise (fun e e' : Entid => e < e') ∧
      (∀ e, e ∈ es ↔ .ref e ∈ values ∧ ∃ n b, Shows db.schema db.store.rows specs e n b) ∧
      List.Forall₂ (fun e m => Correct db.schema db.store.rows specs e m) es out := by
  obtain ⟨m, hm, hwf, hc, hk⟩ := pullConsumer_ok hr ha (i := 0) (values := values.map fun v => [v])
    (by
      intro row hrow
      obtain ⟨v, hv', rfl⟩ := List.mem_map.mp hrow
      obtain ⟨e, rfl⟩ := hv v hv'
      exact ⟨e, rfl⟩)
  have hin : ∀ e, (∃ row ∈ values.map (fun v => [v]), row[0]? = some (TypedValue.ref e)) ↔
      .ref e ∈ values := by
    intro e
    constructor
    · rintro ⟨row, hrow, he⟩
      obtain ⟨v, hv', rfl⟩ := List.mem_map.mp hrow
      cases he
      exact hv'
    · intro h
      exact ⟨_, List.mem_map.mpr ⟨_, h, rfl⟩, rfl⟩
  refine ⟨_, (sortBy (fun p : Entid × PullMap => p.1) m).map (·.1),
    by unfold pullColl; rw [hm]; rfl, ?_, ?_, ?_⟩
  · have h1 := Sync.pairwise_sortBy (fun p : Entid × PullMap => p.1) m
    have h2 : ((sortBy (fun p : Entid × PullMap => p.1) m).map (·.1)).Nodup :=
      ((sortBy_perm _ m).map _).nodup_iff.mpr hwf
    rw [List.pairwise_map]
    unfold List.Nodup at h2
    rw [List.pairwise_map] at h2
    exact (h1.and h2).imp fun ⟨h, h'⟩ => by omega
  · intro e
    rw [← hin, ← hk, List.mem_map]
    constructor
    · rintro ⟨⟨e', x⟩, hx, rfl⟩
      rw [mem_sortBy] at hx
      exact ⟨x, AMap.mem_get hwf hx⟩
    · rintro ⟨x, hx⟩
      exact ⟨(e, x), by rw [mem_sortBy]; exact AMap.get_some_mem hx, rfl⟩
  · rw [List.forall₂_map_left_iff, List.forall₂_map_right_iff, List.forall₂_same]
    rintro ⟨e, x⟩ hx
    rw [mem_sortBy] at hx
    have hg := AMap.mem_get hwf hx
    obtain ⟨⟨row, hrow, he⟩, -⟩ := (hk e).mp ⟨x, hg⟩
    have := hc row hrow e he
    rw [hg] at this
    exact this

/-! ### Examples -/

def nOne : Keyword := kw "x" "one"
def nMany : Keyword := kw "x" "many"
def nAs : Keyword := kw "p" "name"

/-- `[:x/many (:x/one :as :p/name) :db/id]` -/
def pullSpecs : List PullSpec :=
  [.attr (.ident nMany) none, .attr (.ident nOne) (some nAs), .attr (.ident dbIdKeyword) none]

theorem asks_pullSpecs {s : Schema} (h1 : AMap.get s.identMap nMany = some xMany)
    (h2 : AMap.get s.identMap nOne = some xOne) {sp : PullSpec} (hs : sp ∈ pullSpecs) {a : Entid} {n : Keyword}
    (h : Asks s sp a n) : (a = xMany ∧ n = nMany) ∨ (a = xOne ∧ n = nAs) := by
  simp only [pullSpecs, List.mem_cons, List.not_mem_nil, or_false] at hs
  rcases hs with rfl | rfl | rfl
  · cases h with | ident _ h => rw [h1] at h; cases h; exact .inl ⟨rfl, rfl⟩
  · cases h with | identAs _ h => rw [h2] at h; cases h; exact .inr ⟨rfl, rfl⟩
  · cases h with | ident h _ => exact absurd rfl h

theorem asksId_pullSpecs {sp : PullSpec} (hs : sp ∈ pullSpecs) {n : Keyword} (h : AsksId sp n) :
    n = dbIdKeyword := by
  simp only [pullSpecs, List.mem_cons, List.not_mem_nil, or_false] at hs
  rcases hs with rfl | rfl | rfl
  · exact absurd (show nMany = dbIdKeyword by cases h) (by decide)
  · exact absurd (show nOne = dbIdKeyword by cases h) (by decide)
  · cases h; rfl

/-- The hypotheses of the theorems above are met by a history with data, and the result is what is to be
expected. -/
theorem C54_example : ∃ db p, ReachKept db ∧ Puller.prepare db.schema pullSpecs = .ok p ∧
    Unambiguous db.schema pullSpecs ∧ p.pull db.schema db.store.rows [e1, xOne] = .ok
      [(e1, [(dbIdKeyword, .scalar (.ref e1)), (nMany, .vec [.long 1, .long 2]), (nAs, .scalar (str "a"))]),
       (xOne, [(dbIdKeyword, .scalar (.ref xOne))])] := by
  obtain ⟨db, h, hp⟩ := reachKept_of_setup (txs := [dataTx]) (p := fun db =>
    decide (AMap.get db.schema.identMap nMany = some xMany) &&
    decide (AMap.get db.schema.identMap nOne = some xOne) &&
    match Puller.prepare db.schema pullSpecs with
    | .ok p => decide (p.pull db.schema db.store.rows [e1, xOne] = .ok
      [(e1, [(dbIdKeyword, .scalar (.ref e1)), (nMany, .vec [.long 1, .long 2]), (nAs, .scalar (str "a"))]),
       (xOne, [(dbIdKeyword, .scalar (.ref xOne))])])
    | _ => false) (by decide +kernel)
  simp only [Bool.and_eq_true, decide_eq_true_eq] at hp
  obtain ⟨⟨h1, h2⟩, hp⟩ := hp
  cases hpp : Puller.prepare db.schema pullSpecs with
  | err e => rw [hpp] at hp; cases hp
  | panic => rw [hpp] at hp; cases hp
  | ok p =>
    rw [hpp] at hp
    simp only [decide_eq_true_eq] at hp
    refine ⟨db, p, h, hpp, ⟨trivial, ?_, ?_, ?_⟩, hp⟩
    · intro sp hs sp' hs' a n n' ha ha'
      rcases asks_pullSpecs h1 h2 hs ha with ⟨rfl, rfl⟩ | ⟨rfl, rfl⟩ <;>
        rcases asks_pullSpecs h1 h2 hs' ha' with ⟨hx, rfl⟩ | ⟨hx, rfl⟩ <;>
        first | rfl | exact absurd hx (by decide)
    · intro sp hs sp' hs' a a' n ha ha'
      rcases asks_pullSpecs h1 h2 hs ha with ⟨rfl, rfl⟩ | ⟨rfl, rfl⟩ <;>
        rcases asks_pullSpecs h1 h2 hs' ha' with ⟨rfl, hx⟩ | ⟨rfl, hx⟩ <;>
        first | rfl | exact absurd hx (by decide)
    · intro sp hs sp' hs' a n ha ha'
      have := asksId_pullSpecs hs ha
      subst this
      rcases asks_pullSpecs h1 h2 hs' ha' with ⟨_, hx⟩ | ⟨_, hx⟩ <;> exact absurd hx (by decide)

/-- C54_entity's hypotheses hold of a history with data. -/
theorem C54_entity_example : ∃ db, ReachIdents db ∧
    (∀ a ∈ [xMany, xOne], ∃ n, AMap.get db.schema.entidMap a = some n) ∧
    pullForEntity db.schema db.store.rows e1 [xMany, xOne] =
      .ok [(nMany, .vec [.long 1, .long 2]), (nOne, .scalar (str "a"))] := by
  have key : (runWith identsOkB [setupTx, dataTx] bootDb).any (fun db =>
      ([xMany, xOne].all fun a => (AMap.get db.schema.entidMap a).isSome) &&
      decide (pullForEntity db.schema db.store.rows e1 [xMany, xOne] =
        .ok [(nMany, .vec [.long 1, .long 2]), (nOne, .scalar (str "a"))])) = true := by decide +kernel
  cases hrun : runWith identsOkB [setupTx, dataTx] bootDb with
  | none => rw [hrun] at key; cases key
  | some db =>
    rw [hrun] at key
    simp only [Option.any_some, Bool.and_eq_true, List.all_eq_true, decide_eq_true_eq] at key
    refine ⟨db, runWith_induct (P := ReachIdents) ?_ (.boot bootDb_eq) hrun,
      fun a ha => Option.isSome_iff_exists.mp (key.1 a ha), key.2⟩
    intro db db' h ht hk ho
    simp only [identsOkB, Bool.and_eq_true] at ho
    exact .step h ht hk (identAttrB_spec ho.1) (noIdentMovesB_spec ho.2)

/-- The pulled map lacks or differs from something that is to be shown. -/
def Misses (db : Db) (specs : List PullSpec) (e : Entid) : Prop :=
  ∃ p res, Puller.prepare db.schema specs = .ok p ∧ p.pull db.schema db.store.rows [e] = .ok res ∧
    ¬ Correct db.schema db.store.rows specs e ((AMap.get res e).getD [])

/-- Computed: what is found under `n`. -/
def pulledB (db : Db) (specs : List PullSpec) (e : Entid) (n : Keyword) (o : Option PullVal) : Bool :=
  match Puller.prepare db.schema specs with
  | .ok p => match p.pull db.schema db.store.rows [e] with
    | .ok res => decide (AMap.get ((AMap.get res e).getD []) n = o)
    | _ => false
  | _ => false

theorem misses_of {db : Db} {specs : List PullSpec} {e : Entid} {n : Keyword} {o : Option PullVal} {b : PullVal}
    (h : pulledB db specs e n o = true) (hs : Shows db.schema db.store.rows specs e n b)
    (hne : ∀ b', o = some b' → ¬ b.Same b') : Misses db specs e := by
  unfold pulledB at h
  split at h
  · rename_i p hp
    split at h
    · rename_i res hres
      refine ⟨p, res, hp, hres, fun hc => ?_⟩
      obtain ⟨b', hb, hsame⟩ := (hc n b).mp hs
      rw [decide_eq_true_eq.mp h] at hb
      exact hne b' hb hsame
    · cases h
  · cases h

theorem not_same_scalar {v v' : TypedValue} (h : v ≠ v') : ¬ (PullVal.scalar v).Same (.scalar v') := by
  intro hs; cases hs; exact h rfl

/-- `[(:x/id :as :p/name) (:x/one :as :p/name)]`: the value of `:x/id` is not shown. -/
def sameNameSpecs : List PullSpec :=
  [.attr (.ident (kw "x" "id")) (some nAs), .attr (.ident nOne) (some nAs)]

theorem C54_fails_same_name : ∃ db, ReachKept db ∧ Misses db sameNameSpecs e1 := by
  obtain ⟨db, h, hp⟩ := reachKept_of_setup (txs := [dataTx]) (p := fun db =>
    decide (AMap.get db.schema.identMap (kw "x" "id") = some xId) &&
    decide ((db.schema.attr xId).map (·.multival) = some false) && hasB db e1 xId (str "k") &&
    pulledB db sameNameSpecs e1 nAs (some (.scalar (str "a")))) (by decide +kernel)
  simp only [Bool.and_eq_true, decide_eq_true_eq, hasB_iff, Option.map_eq_some_iff] at hp
  obtain ⟨⟨⟨h1, at_, h2, h3⟩, h4⟩, h5⟩ := hp
  refine ⟨db, h, misses_of h5 (.attr List.mem_cons_self (.identAs (by decide) h1) (.one h2 h3 h4)) ?_⟩
  intro b' hb
  cases hb
  exact not_same_scalar (by decide)

/-- `[:x/one (:x/one :as :p/name)]`: nothing is shown under `:x/one`. -/
def twoNameSpecs : List PullSpec := [.attr (.ident nOne) none, .attr (.ident nOne) (some nAs)]

theorem C54_fails_two_names : ∃ db, ReachKept db ∧ Misses db twoNameSpecs e1 := by
  obtain ⟨db, h, hp⟩ := reachKept_of_setup (txs := [dataTx]) (p := fun db =>
    decide (AMap.get db.schema.identMap nOne = some xOne) &&
    decide ((db.schema.attr xOne).map (·.multival) = some false) && hasB db e1 xOne (str "a") &&
    pulledB db twoNameSpecs e1 nOne none) (by decide +kernel)
  simp only [Bool.and_eq_true, decide_eq_true_eq, hasB_iff, Option.map_eq_some_iff] at hp
  obtain ⟨⟨⟨h1, at_, h2, h3⟩, h4⟩, h5⟩ := hp
  exact ⟨db, h, misses_of h5 (.attr List.mem_cons_self (.ident (by decide) h1) (.one h2 h3 h4))
    (by intro b' hb; cases hb)⟩

/-- `[* :db/id]`: the entity is not shown. -/
def wildcardSpecs : List PullSpec := [.wildcard, .attr (.ident dbIdKeyword) none]

theorem C54_fails_wildcard : ∃ db, ReachKept db ∧ Misses db wildcardSpecs e1 := by
  obtain ⟨db, h, hp⟩ := reachKept_of_setup (txs := [dataTx]) (p := fun db =>
    pulledB db wildcardSpecs e1 dbIdKeyword none) (by decide +kernel)
  exact ⟨db, h, misses_of hp (.id (List.mem_cons_of_mem _ List.mem_cons_self) .plain)
    (by intro b' hb; cases hb)⟩

/-- `[(:x/one :as :p/name) *]`: the alias is lost. -/
def aliasWildcardSpecs : List PullSpec := [.attr (.ident nOne) (some nAs), .wildcard]

theorem C54_fails_wildcard_alias : ∃ db, ReachKept db ∧ Misses db aliasWildcardSpecs e1 := by
  obtain ⟨db, h, hp⟩ := reachKept_of_setup (txs := [dataTx]) (p := fun db =>
    decide (AMap.get db.schema.identMap nOne = some xOne) &&
    decide ((db.schema.attr xOne).map (·.multival) = some false) && hasB db e1 xOne (str "a") &&
    pulledB db aliasWildcardSpecs e1 nAs none) (by decide +kernel)
  simp only [Bool.and_eq_true, decide_eq_true_eq, hasB_iff, Option.map_eq_some_iff] at hp
  obtain ⟨⟨⟨h1, at_, h2, h3⟩, h4⟩, h5⟩ := hp
  exact ⟨db, h, misses_of h5 (.attr List.mem_cons_self (.identAs (by decide) h1) (.one h2 h3 h4))
    (by intro b' hb; cases hb)⟩

/-- `[(:db/id :as :x/one) :x/one]`: the entity is not shown. -/
def idNameSpecs : List PullSpec := [.attr (.ident dbIdKeyword) (some nOne), .attr (.ident nOne) none]

theorem C54_fails_id_name : ∃ db, ReachKept db ∧ Misses db idNameSpecs e1 := by
  obtain ⟨db, h, hp⟩ := reachKept_of_setup (txs := [dataTx]) (p := fun db =>
    pulledB db idNameSpecs e1 nOne (some (.scalar (str "a")))) (by decide +kernel)
  refine ⟨db, h, misses_of hp (.id List.mem_cons_self .as) ?_⟩
  intro b' hb
  cases hb
  exact not_same_scalar (by decide)

/-- `[:find [(pull ?e [:x/one]) ...]]` with two entities, one of which has no `:x/one`, has one map, where
`[:find (pull ?e [:x/one])]` has two. -/
theorem C54_fails_coll : ∃ db, ReachKept db ∧
    pullColl db.schema db.store.rows [.attr (.ident nOne) none] [.ref xOne, .ref e1] =
      .ok [[(nOne, .scalar (str "a"))]] ∧
    pullRel db.schema db.store.rows [(0, [.attr (.ident nOne) none])] [[.ref xOne], [.ref e1]] =
      .ok [[.map []], [.map [(nOne, .scalar (str "a"))]]] := by
  obtain ⟨db, h, hp⟩ := reachKept_of_setup (txs := [dataTx]) (p := fun db =>
    decide (pullColl db.schema db.store.rows [.attr (.ident nOne) none] [.ref xOne, .ref e1] =
      .ok [[(nOne, .scalar (str "a"))]]) &&
    decide (pullRel db.schema db.store.rows [(0, [.attr (.ident nOne) none])] [[.ref xOne], [.ref e1]] =
      .ok [[.map []], [.map [(nOne, .scalar (str "a"))]]])) (by decide +kernel)
  simp only [Bool.and_eq_true, decide_eq_true_eq] at hp
  exact ⟨db, h, hp.1, hp.2⟩

end Mentat
