import Verif.Props.Vocabulary
/-
C43, several definitions at once: src/vocabulary.rs:710-779 `ensure_vocabularies` checks all the
definitions first and then works on them in three rounds, so that all but the first are worked on with
the result of a check of an older store.
-/
namespace Mentat

/-! ### Definitions that were not disturbed -/

theorem Undisturbed.refl (db : Db) (d : Definition) : Undisturbed db db d :=
  ⟨rfl, fun _ _ _ => Iff.rfl, fun _ _ _ => Iff.rfl, fun _ _ _ => rfl, fun _ _ _ _ _ => ⟨rfl, fun _ _ _ => Iff.rfl⟩⟩

theorem Undisturbed.trans {db db1 db2 : Db} {d : Definition} (h : Undisturbed db db1 d) (h' : Undisturbed db1 db2 d) :
    Undisturbed db db2 d := by
  refine ⟨h'.name.trans h.name, fun e he v => ?_, fun e he v => ?_, fun k x hm => (h'.names k x hm).trans (h.names k x hm),
    fun k x a hm ha => ?_⟩
  · exact (h'.versions e (h.name.trans he) v).trans (h.versions e he v)
  · exact (h'.refs e (h.name.trans he) v).trans (h.refs e he v)
  · obtain ⟨h1, h2⟩ := h.attrs k x a hm ha
    obtain ⟨h3, h4⟩ := h'.attrs k x a hm ((h.names k x hm).trans ha)
    exact ⟨h3.trans h1, fun b v hb => (h4 b v hb).trans (h2 b v hb)⟩

theorem Undisturbed.stored {db db' : Db} {d : Definition} (h : Undisturbed db db' d) (e : Entid) (n : Nat) :
    StoredAs db' d.name e n ↔ StoredAs db d.name e n := by
  unfold StoredAs
  rw [h.name]
  constructor
  · rintro ⟨h1, h2, h3⟩; exact ⟨h1, (h.versions e h1 _).1 h2, h3⟩
  · rintro ⟨h1, h2, h3⟩; exact ⟨h1, (h.versions e h1 _).2 h2, h3⟩

theorem Undisturbed.has {db db' : Db} {d : Definition} (h : Undisturbed db db' d) {e : Entid}
    (he : AMap.get db.schema.identMap d.name = some e) {k y} (hm : (k, y) ∈ d.attributes) (x : Attribute) :
    HasAttribute db' e k x ↔ HasAttribute db e k x := by
  unfold HasAttribute
  rw [h.names k y hm]
  constructor
  · rintro ⟨a, h1, h2, h3⟩
    exact ⟨a, h1, (h.refs e he _).1 h2, (h.attrs k y a hm h1).1 ▸ h3⟩
  · rintro ⟨a, h1, h2, h3⟩
    exact ⟨a, h1, (h.refs e he _).2 h2, (h.attrs k y a hm h1).1.symm ▸ h3⟩

theorem Undisturbed.fits {db db' : Db} {d : Definition} (h : Undisturbed db db' d) {c : VCheck} (hf : Fits db d c) :
    Fits db' d c := by
  cases c with
  | notPresent =>
    intro e he v hv
    rw [h.name] at he
    exact hf e he v ((h.versions e he v).1 hv)
  | present =>
    obtain ⟨e, h1, h2⟩ := hf
    exact ⟨e, (h.stored _ _).2 h1, fun k x hm => (h.has h1.1 hm x).2 (h2 k x hm)⟩
  | needsUpdate w =>
    obtain ⟨h1, h2, h3⟩ := hf
    refine ⟨(h.stored _ _).2 h1, h2, fun k y hm x => ?_⟩
    rw [h.has h1.1 hm x, ← h3 k y hm x]
    unfold existingAttribute
    rw [h.names k y hm]
  | tooNew w =>
    exact ⟨(h.stored _ _).2 hf.1, hf.2⟩
  | missing m =>
    obtain ⟨e, h1, h2, h3, h4, h5⟩ := hf
    refine ⟨e, (h.stored _ _).2 h1, h2, h3, fun k y hm => ?_, fun k y hm x hx => h5 k y hm x ((h.has h1.1 hm x).1 hx)⟩
    rw [h4 k y hm]
    exact forall_congr' fun x => not_congr (h.has h1.1 hm x).symm

theorem Undisturbed.ensurable {db db' : Db} {d : Definition} (h : Undisturbed db db' d) (hE : Ensurable db d) :
    Ensurable db' d := by
  refine ⟨hE.version, hE.names, hE.noHistory, fun k x a o hm ha ho h1 h2 => ?_, fun k x a o hm ha ho h1 h2 h3 p hp => ?_⟩
  · rw [h.names k x hm] at ha
    rw [(h.attrs k x a hm ha).1] at ho
    obtain ⟨e, n, h3, h4, h5⟩ := hE.drops k x a o hm ha ho h1 h2
    exact ⟨e, n, (h.stored _ _).2 h3, h4, (h.refs e h3.1 _).2 h5⟩
  · rw [h.names k x hm] at ha
    obtain ⟨q1, q2⟩ := h.attrs k x a hm ha
    rw [q1] at ho
    refine (q2 p.1 p.2 (describing_mem hp)).2 (hE.keeps k x a o hm ha ho h1 h2 (fun e he hh => ?_) p hp)
    exact h3 e ((h.stored _ _).2 he) ((h.refs e he.1 _).2 hh)

/-! ### Checking all -/

/-- The work a definition gives rise to. -/
def todo (db : Db) (d : Definition) : Option (Keyword × Definition × VCheck) :=
  match checkVocabulary db d with
  | .ok .present => none
  | .ok c => some (d.name, d, c)
  | _ => none

def found (db : Db) (d : Definition) : Option (Keyword × VOutcome) :=
  if checkVocabulary db d = .ok .present then some (d.name, .existed) else none

theorem insert_new {K V : Type} [DecidableEq K] : ∀ (m : AMap K V) (k : K) (v : V), (∀ p ∈ m, p.1 ≠ k) →
    AMap.insert m k v = m ++ [(k, v)]
  | [], _, _, _ => rfl
  | (k', v') :: r, k, v, h => by
    have h1 : k' ≠ k := h (k', v') (by simp)
    simp only [AMap.insert, if_neg h1, List.cons_append]
    rw [insert_new r k v fun p hp => h p (List.mem_cons_of_mem _ hp)]

theorem checkAll_spec {db : Db} : ∀ (ds : List Definition) (out : AMap Keyword VOutcome)
    (work : AMap Keyword (Definition × VCheck)) {out' work'}, (ds.map (·.name)).Nodup →
    (∀ d ∈ ds, ∀ p ∈ out, p.1 ≠ d.name) → (∀ d ∈ ds, ∀ p ∈ work, p.1 ≠ d.name) →
    checkAll db ds out work = .ok (out', work') →
    (∀ d ∈ ds, ∃ c, checkVocabulary db d = .ok c ∧ ∀ v, c ≠ .tooNew v) ∧
    out' = out ++ ds.filterMap (found db) ∧ work' = work ++ ds.filterMap (todo db)
  | [], out, work, out', work', _, _, _, h => by
    obtain ⟨rfl, rfl⟩ := Prod.mk.inj (Res.ok.inj h)
    simp
  | d :: r, out, work, out', work', hn, ho, hw, h => by
    simp only [List.map_cons, List.nodup_cons, List.mem_map, not_exists, not_and] at hn
    simp only [checkAll, Res.bind_ok_iff] at h
    obtain ⟨c, hc, h⟩ := h
    have hne : ∀ d' ∈ r, d.name ≠ d'.name := fun d' hd' e => hn.1 d' hd' e.symm
    have work1 : c ≠ .present → (∀ v, c ≠ .tooNew v) →
        checkAll db r out (AMap.insert work d.name (d, c)) = .ok (out', work') →
        (∀ d' ∈ d :: r, ∃ c, checkVocabulary db d' = .ok c ∧ ∀ v, c ≠ .tooNew v) ∧
        out' = out ++ (d :: r).filterMap (found db) ∧ work' = work ++ (d :: r).filterMap (todo db) := by
      intro h1 h2 h3
      rw [insert_new _ _ _ (hw d (by simp))] at h3
      obtain ⟨q1, q2, q3⟩ := checkAll_spec r _ _ hn.2 (fun d' hd' => ho d' (List.mem_cons_of_mem _ hd'))
        (fun d' hd' p hp => by
          rcases List.mem_append.1 hp with hp | hp
          · exact hw d' (List.mem_cons_of_mem _ hd') p hp
          · simp only [List.mem_singleton] at hp
            subst hp
            exact hne d' hd') h3
      have f1 : found db d = none := by
        unfold found
        rw [hc, if_neg (fun e => h1 (Res.ok.inj e))]
      have f2 : todo db d = some (d.name, d, c) := by
        unfold todo
        rw [hc]
        cases c with
        | present => exact absurd rfl h1
        | _ => rfl
      refine ⟨fun d' hd' => ?_, ?_, ?_⟩
      · rcases List.mem_cons.1 hd' with rfl | hd'
        · exact ⟨c, hc, h2⟩
        · exact q1 d' hd'
      · rw [q2, List.filterMap_cons, f1]
      · rw [q3, List.filterMap_cons, f2]; simp
    cases c with
    | tooNew v => cases h
    | notPresent => exact work1 (by simp) (by simp) h
    | needsUpdate v => exact work1 (by simp) (by simp) h
    | missing m => exact work1 (by simp) (by simp) h
    | present =>
      simp only at h
      rw [insert_new _ _ _ (ho d (by simp))] at h
      obtain ⟨q1, q2, q3⟩ := checkAll_spec r _ _ hn.2
        (fun d' hd' p hp => by
          rcases List.mem_append.1 hp with hp | hp
          · exact ho d' (List.mem_cons_of_mem _ hd') p hp
          · simp only [List.mem_singleton] at hp
            subst hp
            exact hne d' hd') (fun d' hd' => hw d' (List.mem_cons_of_mem _ hd')) h
      have f1 : found db d = some (d.name, .existed) := by
        unfold found
        rw [if_pos hc]
      have f2 : todo db d = none := by
        unfold todo
        rw [hc]
      refine ⟨fun d' hd' => ?_, ?_, ?_⟩
      · rcases List.mem_cons.1 hd' with rfl | hd'
        · exact ⟨_, hc, by simp⟩
        · exact q1 d' hd'
      · rw [q2, List.filterMap_cons, f1]; simp
      · rw [q3, List.filterMap_cons, f2]

theorem insertByName_perm {α : Type} (x : Keyword × α) : ∀ l, (insertByName x l).Perm (x :: l)
  | [] => .refl _
  | y :: r => by
    unfold insertByName
    by_cases h : Keyword.le x.1 y.1 = true
    · rw [if_pos h]
    · rw [if_neg h]
      exact ((insertByName_perm x r).cons y).trans (.swap x y r)

theorem sortByName_perm {α : Type} : ∀ l : List (Keyword × α), (sortByName l).Perm l
  | [] => .refl _
  | x :: r => by
    show (insertByName x (sortByName r)).Perm _
    exact (insertByName_perm x _).trans ((sortByName_perm r).cons x)

theorem nodup_map_inj {α β : Type} {f : α → β} : ∀ {l : List α}, (l.map f).Nodup → ∀ {x y}, x ∈ l → y ∈ l → f x = f y → x = y
  | a :: r, hn, x, y, hx, hy, e => by
    simp only [List.map_cons, List.nodup_cons, List.mem_map, not_exists, not_and] at hn
    rcases List.mem_cons.1 hx with h1 | h1 <;> rcases List.mem_cons.1 hy with h2 | h2
    · rw [h1, h2]
    · exact absurd (by rw [← e, h1]) (hn.1 y h2)
    · exact absurd (by rw [e, h2]) (hn.1 x h1)
    · exact nodup_map_inj hn.2 h1 h2 e

/-! ### The rounds -/

/-- The outcome of the work for a check. -/
def outcomeOf : VCheck → VOutcome
  | .notPresent => .installed
  | .needsUpdate _ => .upgraded
  | .missing _ => .installedMissing
  | _ => .existed

theorem perform_outcome {db now d c db' o} (h : performCheck db now d c = .ok (db', o)) : o = outcomeOf c := by
  cases c with
  | present => exact (Prod.mk.inj (Res.ok.inj h)).2.symm
  | tooNew v => cases h
  | notPresent =>
    simp only [performCheck, installVocabulary, Res.bind_ok_iff] at h
    obtain ⟨_, _, _, _, h⟩ := h
    exact (Prod.mk.inj (Res.ok.inj h)).2.symm
  | missing m =>
    simp only [performCheck, installAttributesFor, Res.bind_ok_iff] at h
    obtain ⟨_, _, _, _, h⟩ := h
    exact (Prod.mk.inj (Res.ok.inj h)).2.symm
  | needsUpdate w =>
    simp only [performCheck, upgradeVocabulary, Res.bind_ok_iff] at h
    obtain ⟨_, _, _, _, _, _, _, _, h⟩ := h
    exact (Prod.mk.inj (Res.ok.inj h)).2.symm

/-- Names stay, and attributes that are not in one of the definitions. -/
structure Frame (ds : List Definition) (db db' : Db) : Prop where
  names : ∀ k a, AMap.get db.schema.identMap k = some a → AMap.get db'.schema.identMap k = some a
  others : ∀ a, (∀ d ∈ ds, ∀ k x, (k, x) ∈ d.attributes → AMap.get db'.schema.identMap k ≠ some a) →
    db'.schema.attr a = db.schema.attr a

theorem Frame.refl (ds : List Definition) (db : Db) : Frame ds db db := ⟨fun _ _ h => h, fun _ _ => rfl⟩

theorem Frame.trans {ds : List Definition} {db db1 db2 : Db} (h : Frame ds db db1) (h' : Frame ds db1 db2) :
    Frame ds db db2 :=
  ⟨fun k a hk => h'.names k a (h.names k a hk), fun a ha => (h'.others a ha).trans
    (h.others a fun d hd k x hm hk => ha d hd k x hm (h'.names k a hk))⟩

/-- The definitions fit for being ensured together in `db`. -/
structure EnsurableAll (db : Db) (ds : List Definition) : Prop where
  each : ∀ d ∈ ds, Ensurable db d
  apart : ds.Pairwise fun d d1 => Apart d d1 ∧ Apart d1 d
  valid : ∀ d ∈ ds, ∀ k x, (k, x) ∈ d.attributes → ValidAttribute x
  /-- the core vocabulary is not redefined -/
  core : ∀ d ∈ ds, ∀ k x, (k, x) ∈ d.attributes → ∀ b, bootstrapSchema = .ok b → AMap.get b.identMap k = none
  pre : ∀ d ∈ ds, ∀ db v, d.pre db v = .ok db
  post : ∀ d ∈ ds, ∀ db v, d.post db v = .ok db

/-- On the way: the definitions `P` are still to be worked on, and as they were; the others are present. -/
structure Halfway (ds : List Definition) (db0 : Db) (P : Keyword → Prop) (db : Db) : Prop where
  steady : ReachSteady db
  core : CoreIntact db.schema
  frame : Frame ds db0 db
  pending : ∀ d ∈ ds, P d.name → Undisturbed db0 db d
  done : ∀ d ∈ ds, ¬ P d.name → checkVocabulary db d = .ok .present

theorem EnsurableAll.pair {db : Db} {ds : List Definition} (h : EnsurableAll db ds) {d d1} (hd : d ∈ ds) (hd1 : d1 ∈ ds)
    (hne : d.name ≠ d1.name) : Apart d d1 := by
  have key : ∀ {l : List Definition}, l.Pairwise (fun d d1 => Apart d d1 ∧ Apart d1 d) → d ∈ l → d1 ∈ l → Apart d d1 := by
    intro l hl h1 h2
    induction hl with
    | nil => cases h1
    | cons h3 _ ih =>
      rcases List.mem_cons.1 h1 with e | h1' <;> rcases List.mem_cons.1 h2 with e' | h2'
      · exact absurd (by rw [e, e']) hne
      · exact e ▸ (h3 _ h2').1
      · exact e' ▸ (h3 _ h1').2
      · exact ih h1' h2'
  exact key h.apart hd hd1

theorem EnsurableAll.nodup {db : Db} {ds : List Definition} (h : EnsurableAll db ds) : (ds.map (·.name)).Nodup := by
  rw [List.Nodup, List.pairwise_map]
  exact h.apart.imp fun h => h.1.name

theorem workRound_spec {ds : List Definition} {db0 : Db} (hall : EnsurableAll db0 ds) (hc0 : CoreIntact db0.schema)
    {now : Int} {act : Db → Definition → VCheck → Option (Res (Db × VOutcome))} {p : VCheck → Bool}
    (hact : ∀ db d c, act db d c = if p c = true then some (performCheck db now d c) else none) :
    ∀ (items : List (Keyword × Definition × VCheck)) {P : Keyword → Prop} {db db' : Db} {out out'},
    (∀ it ∈ items, it.2.1 ∈ ds ∧ it.1 = it.2.1.name ∧ checkVocabulary db0 it.2.1 = .ok it.2.2 ∧ it.2.2 ≠ .present) →
    (items.map (·.1)).Nodup → (∀ it ∈ items, p it.2.2 = true → P it.1) → Halfway ds db0 P db →
    workRound now act items db out = .ok (db', out') →
    Halfway ds db0 (fun k => P k ∧ ∀ it ∈ items, it.1 = k → p it.2.2 = false) db' ∧
    (∀ it ∈ items, p it.2.2 = true → AMap.get out' it.1 = some (outcomeOf it.2.2)) ∧
    ∀ k, (∀ it ∈ items, it.1 = k → p it.2.2 = false) → AMap.get out' k = AMap.get out k
  | [], P, db, db', out, out', _, _, _, hH, h => by
    obtain ⟨rfl, rfl⟩ := Prod.mk.inj (Res.ok.inj h)
    have : (fun k => P k ∧ ∀ it ∈ ([] : List (Keyword × Definition × VCheck)), it.1 = k → p it.2.2 = false) = P := by
      funext k; simp
    rw [this]
    exact ⟨hH, by simp, fun _ _ => rfl⟩
  | (name, d, c) :: r, P, db, db', out, out', hit, hn, hP, hH, h => by
    simp only [List.map_cons, List.nodup_cons, List.mem_map, not_exists, not_and] at hn
    obtain ⟨hd, hname, hchk, hnp⟩ := hit (name, d, c) (by simp)
    simp only at hd hname hchk hnp
    subst hname
    simp only [workRound, hact] at h
    have hit' := fun it (hi : it ∈ r) => hit it (List.mem_cons_of_mem _ hi)
    have hP' := fun it (hi : it ∈ r) => hP it (List.mem_cons_of_mem _ hi)
    by_cases hp : p c = true
    · simp only [if_pos hp, Res.bind_ok_iff] at h
      obtain ⟨⟨db1, o⟩, h1, h2⟩ := h
      have hPd : P d.name := hP (d.name, d, c) (by simp) hp
      have hU := hH.pending d hd hPd
      have hEn := perform_ensures hH.steady hH.core (hU.ensurable (hall.each d hd)) (hall.pre d hd) (hall.post d hd)
        (hU.fits (fits_of_check hc0 hchk)) hnp h1
      have hH1 : Halfway ds db0 (fun k => P k ∧ k ≠ d.name) db1 := by
        refine ⟨hEn.steady (hall.valid d hd), hEn.core (hall.core d hd), hH.frame.trans ⟨hEn.names, fun a ha => ?_⟩,
          fun d1 hd1 h3 => ?_, fun d1 hd1 h3 => ?_⟩
        · exact hEn.others a fun k x hm => ha d hd k x hm
        · exact (hH.pending d1 hd1 h3.1).trans (hEn.undisturbed d1 (hall.pair hd hd1 fun e => h3.2 e.symm))
        · by_cases hne : d1.name = d.name
          · have : d1 = d := by
              have hnd := hall.nodup
              exact nodup_map_inj hnd hd1 hd hne
            rw [this]; exact hEn.present
          · have hap := hall.pair hd hd1 fun e => hne e.symm
            refine hEn.vocabularies d1 hne (fun k x y hm hm' => hap.attrs k y x hm' hm) (hH.done d1 hd1 fun h4 => h3 ⟨h4, hne⟩)
      obtain ⟨q1, q2, q3⟩ := workRound_spec hall hc0 hact r hit' hn.2 (fun it hi hpi => ⟨hP' it hi hpi, fun e => hn.1 it hi e⟩) hH1 h2
      refine ⟨?_, ?_, ?_⟩
      · have : (fun k => P k ∧ ∀ it ∈ (d.name, d, c) :: r, it.1 = k → p it.2.2 = false) =
            fun k => (P k ∧ k ≠ d.name) ∧ ∀ it ∈ r, it.1 = k → p it.2.2 = false := by
          funext k
          apply propext
          constructor
          · rintro ⟨a1, a2⟩
            refine ⟨⟨a1, fun e => ?_⟩, fun it hi => a2 it (List.mem_cons_of_mem _ hi)⟩
            have := a2 (d.name, d, c) (by simp) e.symm
            simp only [hp] at this
            cases this
          · rintro ⟨⟨a1, a2⟩, a3⟩
            refine ⟨a1, fun it hi e => ?_⟩
            rcases List.mem_cons.1 hi with rfl | hi
            · exact absurd e.symm a2
            · exact a3 it hi e
        rw [this]; exact q1
      · intro it hi hpi
        rcases List.mem_cons.1 hi with rfl | hi
        · rw [q3 d.name fun it hi e => absurd e (hn.1 it hi), AMap.get_insert_self, perform_outcome h1]
        · exact q2 it hi hpi
      · intro k hk
        rw [q3 k fun it hi => hk it (List.mem_cons_of_mem _ hi), AMap.get_insert_ne]
        intro e
        have := hk (d.name, d, c) (by simp) e
        simp only [hp] at this
        cases this
    · simp only [if_neg hp] at h
      obtain ⟨q1, q2, q3⟩ := workRound_spec hall hc0 hact r hit' hn.2 hP' hH h
      have hp' : p c = false := by simpa using hp
      refine ⟨?_, ?_, ?_⟩
      · have : (fun k => P k ∧ ∀ it ∈ (d.name, d, c) :: r, it.1 = k → p it.2.2 = false) =
            fun k => P k ∧ ∀ it ∈ r, it.1 = k → p it.2.2 = false := by
          funext k
          simp [hp']
        rw [this]; exact q1
      · intro it hi hpi
        rcases List.mem_cons.1 hi with rfl | hi
        · exact absurd hpi hp
        · exact q2 it hi hpi
      · exact fun k hk => q3 k fun it hi => hk it (List.mem_cons_of_mem _ hi)

/-! ### All of them -/

/-- What an outcome says about the store before. -/
def Meant (db : Db) (d : Definition) : VOutcome → Prop
  | .installed => ∀ e n, ¬ StoredAs db d.name e n
  | .upgraded => ∃ e n, StoredAs db d.name e n ∧ n < d.version
  | .installedMissing => ∃ e, StoredAs db d.name e d.version ∧ ∃ k x, (k, x) ∈ d.attributes ∧ ∀ y, ¬ HasAttribute db e k y
  | .existed => ∃ e, StoredAs db d.name e d.version ∧ ∀ k x, (k, x) ∈ d.attributes → HasAttribute db e k x

theorem meant_of_check {db : Db} {d : Definition} (hc : CoreIntact db.schema) {c} (h : checkVocabulary db d = .ok c)
    (hn : ∀ v, c ≠ .tooNew v) : Meant db d (outcomeOf c) := by
  have hV := C43_check hc d
  rw [h] at hV
  cases c with
  | tooNew v => exact absurd rfl (hn v)
  | present => exact hV
  | notPresent => exact fun e n hs => hV e hs.1 _ hs.2.1
  | needsUpdate w => exact ⟨_, _, hV.1.1, hV.2⟩
  | missing m =>
    obtain ⟨e, h1, h2, h3, h4, -⟩ := hV
    refine ⟨e, h1, ?_⟩
    cases m with
    | nil => exact absurd rfl h2
    | cons q m =>
      have hm := h3.subset (List.mem_cons_self)
      exact ⟨q.1, q.2, hm, (h4 q.1 q.2 hm).1 (by simp)⟩

theorem get_of_nodup {K V : Type} [DecidableEq K] {k : K} {v : V} : ∀ {m : List (K × V)}, (m.map (·.1)).Nodup → (k, v) ∈ m →
    AMap.get m k = some v
  | (k', v') :: r, hn, h => by
    simp only [List.map_cons, List.nodup_cons, List.mem_map, not_exists, not_and] at hn
    rcases List.mem_cons.1 h with h | h
    · obtain ⟨rfl, rfl⟩ := Prod.mk.inj h
      simp [AMap.get]
    · have : k' ≠ k := fun e => hn.1 _ h e.symm
      simp only [AMap.get, if_neg this]
      exact get_of_nodup hn.2 h

theorem get_none_of {K V : Type} [DecidableEq K] {k : K} : ∀ {m : List (K × V)}, (∀ q ∈ m, q.1 ≠ k) → AMap.get m k = none
  | [], _ => rfl
  | (k', v') :: r, h => by
    simp only [AMap.get, if_neg (h (k', v') (by simp))]
    exact get_none_of fun q hq => h q (List.mem_cons_of_mem _ hq)

/-- What ensuring several definitions leads to. -/
structure EnsuredAll (db : Db) (ds : List Definition) (db' : Db) (out : AMap Keyword VOutcome) : Prop where
  /-- every one of them is present -/
  present : ∀ d ∈ ds, checkVocabulary db' d = .ok .present
  /-- every one of them has an outcome, which is about the store as it was before all the work -/
  outcome : ∀ d ∈ ds, ∃ o, AMap.get out d.name = some o ∧ Meant db d o
  /-- and nothing else has -/
  only : ∀ k, (∀ d ∈ ds, d.name ≠ k) → AMap.get out k = none
  /-- names and other attributes stay -/
  frame : Frame ds db db'
  steady : ReachSteady db'
  core : CoreIntact db'.schema

theorem todo_some {db d it} (h : todo db d = some it) :
    it.1 = d.name ∧ it.2.1 = d ∧ checkVocabulary db d = .ok it.2.2 ∧ it.2.2 ≠ .present := by
  unfold todo at h
  cases hc : checkVocabulary db d with
  | err e => rw [hc] at h; cases h
  | panic => rw [hc] at h; cases h
  | ok c =>
    rw [hc] at h
    cases c with
    | present => cases h
    | _ => obtain rfl := Option.some.inj h; exact ⟨rfl, rfl, rfl, by simp⟩

theorem todo_of {db d c} (h : checkVocabulary db d = .ok c) (hn : c ≠ .present) : todo db d = some (d.name, d, c) := by
  unfold todo
  rw [h]
  cases c with
  | present => exact absurd rfl hn
  | _ => rfl

theorem filterMap_nodup {α β : Type} {f : α → Option β} {key : α → Keyword} {key' : β → Keyword}
    (hf : ∀ a b, f a = some b → key' b = key a) : ∀ {l : List α}, (l.map key).Nodup → ((l.filterMap f).map key').Nodup
  | [], _ => by simp
  | a :: r, h => by
    simp only [List.map_cons, List.nodup_cons] at h
    rw [List.filterMap_cons]
    cases hfa : f a with
    | none => exact filterMap_nodup hf h.2
    | some b =>
      simp only [List.map_cons, List.nodup_cons]
      refine ⟨fun hm => h.1 ?_, filterMap_nodup hf h.2⟩
      obtain ⟨b', hb', he⟩ := List.mem_map.1 hm
      obtain ⟨a', ha', hfa'⟩ := List.mem_filterMap.1 hb'
      rw [← hf a b hfa, ← he, hf a' b' hfa']
      exact List.mem_map_of_mem ha'

theorem ensureAll_ensures {db db' : Db} {now : Int} {ds : List Definition} {out : AMap Keyword VOutcome}
    (hr : ReachSteady db) (hc : CoreIntact db.schema) (hall : EnsurableAll db ds)
    (h : ensureVocabularies db now ds = .ok (db', out)) : EnsuredAll db ds db' out := by
  unfold ensureVocabularies at h
  rw [Res.bind_ok_iff] at h
  obtain ⟨⟨out0, work⟩, hca, h⟩ := h
  obtain ⟨c1, c2, c3⟩ := checkAll_spec ds [] [] hall.nodup (by simp) (by simp) hca
  simp only [List.nil_append] at c2 c3
  -- the work, in order
  have hmem : ∀ it, it ∈ sortByName work ↔ ∃ d ∈ ds, todo db d = some it := by
    intro it
    rw [(sortByName_perm work).mem_iff, c3, List.mem_filterMap]
  have hnd : ((sortByName work).map (·.1)).Nodup := by
    refine ((sortByName_perm work).map _).nodup_iff.2 ?_
    rw [c3]
    exact filterMap_nodup (key := (·.name)) (fun d it hd => (todo_some hd).1) hall.nodup
  have hits : ∀ it ∈ sortByName work, it.2.1 ∈ ds ∧ it.1 = it.2.1.name ∧
      checkVocabulary db it.2.1 = .ok it.2.2 ∧ it.2.2 ≠ .present := by
    intro it hi
    obtain ⟨d, hd, ht⟩ := (hmem it).1 hi
    obtain ⟨t1, t2, t3, t4⟩ := todo_some ht
    exact ⟨t2 ▸ hd, by rw [t1, t2], t2 ▸ t3, t4⟩
  have hsame : ∀ d ∈ ds, ∀ d1 ∈ ds, d.name = d1.name → d = d1 := fun d hd d1 hd1 e =>
    nodup_map_inj hall.nodup hd hd1 e
  -- the outcomes of the check
  have hout0 : ∀ d ∈ ds, checkVocabulary db d = .ok .present → AMap.get out0 d.name = some .existed := by
    intro d hd hp
    rw [c2]
    refine get_of_nodup (filterMap_nodup (key := (·.name)) (fun d q hq => ?_) hall.nodup) (List.mem_filterMap.2 ⟨d, hd, ?_⟩)
    · unfold found at hq
      split at hq
      · obtain rfl := Option.some.inj hq; rfl
      · cases hq
    · unfold found; rw [if_pos hp]
  have hout0' : ∀ k, (∀ d ∈ ds, d.name ≠ k) → AMap.get out0 k = none := by
    intro k hk
    rw [c2]
    refine get_none_of fun q hq => ?_
    obtain ⟨d, hd, hf⟩ := List.mem_filterMap.1 hq
    unfold found at hf
    split at hf
    · obtain rfl := Option.some.inj hf; exact hk d hd
    · cases hf
  -- before the rounds
  have hH0 : Halfway ds db (fun k => ∃ it ∈ sortByName work, it.1 = k) db := by
    refine ⟨hr, hc, .refl ds db, fun d _ _ => .refl db d, fun d hd hno => ?_⟩
    obtain ⟨c, hcc, -⟩ := c1 d hd
    by_cases hp : c = .present
    · rw [hcc, hp]
    · exact absurd ⟨_, (hmem _).2 ⟨d, hd, todo_of hcc hp⟩, rfl⟩ hno
  have hfinal : ∀ {db' out}, Halfway ds db (fun _ => False) db' →
      (∀ it ∈ sortByName work, AMap.get out it.1 = some (outcomeOf it.2.2)) →
      (∀ k, (∀ it ∈ sortByName work, it.1 ≠ k) → AMap.get out k = AMap.get out0 k) → EnsuredAll db ds db' out := by
    intro db' out hH h1 h2
    refine ⟨fun d hd => hH.done d hd id, fun d hd => ?_, fun k hk => ?_, hH.frame, hH.steady, hH.core⟩
    · obtain ⟨c, hcc, hnt⟩ := c1 d hd
      refine ⟨outcomeOf c, ?_, meant_of_check hc hcc hnt⟩
      by_cases hp : c = .present
      · subst hp
        rw [h2 d.name, hout0 d hd hcc]
        · rfl
        · intro it hi e
          obtain ⟨i1, i2, i3, i4⟩ := hits it hi
          have := hsame _ i1 _ hd (i2 ▸ e)
          rw [this, hcc] at i3
          exact i4 (Res.ok.inj i3).symm
      · exact h1 _ ((hmem _).2 ⟨d, hd, todo_of hcc hp⟩)
    · rw [h2 k, hout0' k hk]
      intro it hi e
      obtain ⟨i1, i2, -⟩ := hits it hi
      exact hk _ i1 (i2 ▸ e)
  by_cases hemp : work.isEmpty = true
  · simp only [hemp, if_true] at h
    obtain ⟨rfl, rfl⟩ := Prod.mk.inj (Res.ok.inj h)
    have hnil : work = [] := List.isEmpty_iff.1 hemp
    subst hnil
    refine hfinal ?_ (by simp [sortByName]) fun _ _ => rfl
    have : (fun k => ∃ it ∈ sortByName ([] : AMap Keyword (Definition × VCheck)), it.1 = k) = fun _ => False := by
      funext k; simp [sortByName]
    rw [this] at hH0
    exact hH0
  · simp only [hemp, Bool.false_eq_true, if_false, Res.bind_ok_iff] at h
    obtain ⟨⟨db1, out1⟩, r1, ⟨db2, out2⟩, r2, r3⟩ := h
    let p1 : VCheck → Bool := fun c => match c with | .notPresent => true | _ => false
    let p2 : VCheck → Bool := fun c => match c with | .needsUpdate _ => true | _ => false
    let p3 : VCheck → Bool := fun c => match c with | .missing _ => true | _ => false
    obtain ⟨a1, a2, a3⟩ := workRound_spec (p := p1) hall hc (by intro db d c; cases c <;> rfl) _ hits hnd
      (fun it hi _ => ⟨it, hi, rfl⟩) hH0 r1
    have uniq : ∀ it ∈ sortByName work, ∀ it' ∈ sortByName work, it'.1 = it.1 → it' = it := fun it hi it' hi' e =>
      nodup_map_inj hnd hi' hi e
    obtain ⟨b1, b2, b3⟩ := workRound_spec (p := p2) hall hc (by intro db d c; cases c <;> rfl) _ hits hnd
      (fun it hi hp => ⟨⟨it, hi, rfl⟩, fun it' hi' e => by
        rw [uniq it hi it' hi' e]
        revert hp
        simp only [p1, p2]
        cases it.2.2 <;> simp⟩) a1 r2
    obtain ⟨d1, d2, d3⟩ := workRound_spec (p := p3) hall hc (by intro db d c; cases c <;> rfl) _ hits hnd
      (fun it hi hp => ⟨⟨⟨it, hi, rfl⟩, fun it' hi' e => by
        rw [uniq it hi it' hi' e]
        revert hp
        simp only [p1, p3]
        cases it.2.2 <;> simp⟩, fun it' hi' e => by
        rw [uniq it hi it' hi' e]
        revert hp
        simp only [p2, p3]
        cases it.2.2 <;> simp⟩) b1 r3
    have hkind : ∀ it ∈ sortByName work, p1 it.2.2 = true ∨ p2 it.2.2 = true ∨ p3 it.2.2 = true := by
      intro it hi
      obtain ⟨i1, i2, i3, i4⟩ := hits it hi
      obtain ⟨c, hcc, hnt⟩ := c1 _ i1
      rw [i3] at hcc
      obtain rfl := Res.ok.inj hcc
      revert i4 hnt
      simp only [p1, p2, p3]
      cases it.2.2 <;> simp
    have excl : ∀ c : VCheck, (p1 c = true → p2 c = false ∧ p3 c = false) ∧ (p2 c = true → p3 c = false) := by
      intro c; cases c <;> simp [p1, p2, p3]
    refine hfinal ?_ ?_ ?_
    · refine ⟨d1.steady, d1.core, d1.frame, fun _ _ h => h.elim, fun d hd _ => d1.done d hd ?_⟩
      rintro ⟨⟨⟨⟨it, hi, e⟩, q1⟩, q2⟩, q3⟩
      rcases hkind it hi with k1 | k1 | k1
      · rw [q1 it hi e] at k1; cases k1
      · rw [q2 it hi e] at k1; cases k1
      · rw [q3 it hi e] at k1; cases k1
    · intro it hi
      have no : ∀ {p : VCheck → Bool}, p it.2.2 = false → ∀ it' ∈ sortByName work, it'.1 = it.1 → p it'.2.2 = false := by
        intro p hp it' hi' e
        rw [uniq it hi it' hi' e]; exact hp
      rcases hkind it hi with k1 | k1 | k1
      · rw [d3 it.1 (no ((excl _).1 k1).2), b3 it.1 (no ((excl _).1 k1).1)]
        exact a2 it hi k1
      · rw [d3 it.1 (no ((excl _).2 k1))]
        exact b2 it hi k1
      · exact d2 it hi k1
    · intro k hk
      rw [d3 k fun it hi e => absurd e (hk it hi), b3 k fun it hi e => absurd e (hk it hi),
        a3 k fun it hi e => absurd e (hk it hi)]

/-- C43: after several definitions that share no names were ensured together, each of them is present,
with an outcome that says what was done about it; names, and the attributes that are not in a
definition, stay.  (Missing: definitions that are not `Ensurable`, for which this
can fail, or that share names, and functions that run before and after an upgrade; an attribute cannot
be shared anyway, see `C43_shared_refused`.) -/
theorem C43_all_partial {db db' : Db} {now : Int} {ds : List Definition} {out : AMap Keyword VOutcome}
    (hr : ReachSteady db) (hc : CoreIntact db.schema) (hall : EnsurableAll db ds)
    (h : ensureVocabularies db now ds = .ok (db', out)) :
    (∀ d ∈ ds, checkVocabulary db' d = .ok .present) ∧ EnsuredAll db ds db' out :=
  have := ensureAll_ensures hr hc hall h
  ⟨this.present, this⟩

/-- C43: ensuring the definitions again changes nothing, and every outcome is then that they existed. -/
theorem C43_all_again_partial {db db' : Db} {now now' : Int} {ds : List Definition} {out : AMap Keyword VOutcome}
    (hr : ReachSteady db) (hc : CoreIntact db.schema) (hall : EnsurableAll db ds)
    (h : ensureVocabularies db now ds = .ok (db', out)) :
    ∃ out', ensureVocabularies db' now' ds = .ok (db', out') ∧
      (∀ d ∈ ds, AMap.get out' d.name = some .existed) ∧ ∀ k, (∀ d ∈ ds, d.name ≠ k) → AMap.get out' k = none := by
  have hp := (ensureAll_ensures hr hc hall h).present
  have key : ∀ (l : List Definition) (o : AMap Keyword VOutcome), (∀ d ∈ l, checkVocabulary db' d = .ok .present) →
      ∃ o', checkAll db' l o [] = .ok (o', []) ∧ (∀ d ∈ l, AMap.get o' d.name = some .existed) ∧
        ∀ k, (∀ d ∈ l, d.name ≠ k) → AMap.get o' k = AMap.get o k := by
    intro l
    induction l with
    | nil => intro o _; exact ⟨o, rfl, by simp, fun _ _ => rfl⟩
    | cons d r ih =>
      intro o hl
      obtain ⟨o', h1, h2, h3⟩ := ih (AMap.insert o d.name .existed) fun d' hd' => hl d' (List.mem_cons_of_mem _ hd')
      refine ⟨o', ?_, fun d' hd' => ?_, fun k hk => ?_⟩
      · simp only [checkAll, hl d (by simp)]
        exact h1
      · rcases List.mem_cons.1 hd' with rfl | hd'
        · by_cases hin : ∀ d'' ∈ r, d''.name ≠ d'.name
          · rw [h3 _ hin, AMap.get_insert_self]
          · simp only [Classical.not_forall, Classical.not_not] at hin
            obtain ⟨d'', hd'', e⟩ := hin
            rw [← e]; exact h2 d'' hd''
        · exact h2 d' hd'
      · rw [h3 k fun d' hd' => hk d' (List.mem_cons_of_mem _ hd'), AMap.get_insert_ne _ _ (hk d (by simp))]
  obtain ⟨out', h1, h2, h3⟩ := key ds [] hp
  refine ⟨out', ?_, h2, fun k hk => by rw [h3 k hk]; rfl⟩
  unfold ensureVocabularies
  rw [h1]
  rfl

/-! ### Examples -/

def apartB (d d1 : Definition) : Bool :=
  decide (d.name ≠ d1.name) && decide (d.name ∉ d1.attributes.map (·.1)) && decide (d1.name ∉ d.attributes.map (·.1)) &&
  d.attributes.all fun p => decide (p.1 ∉ d1.attributes.map (·.1))

theorem apartB_spec {d d1 : Definition} (h : apartB d d1 = true) : Apart d d1 := by
  simp only [apartB, Bool.and_eq_true, decide_eq_true_eq, List.all_eq_true] at h
  obtain ⟨⟨⟨h1, h2⟩, h3⟩, h4⟩ := h
  exact ⟨h1, fun x hx => h2 (List.mem_map_of_mem hx), fun x hx => h3 (List.mem_map_of_mem hx),
    fun k x y hx hy => h4 (k, x) hx (List.mem_map_of_mem (f := (·.1)) hy)⟩

def ensurableAllB (db : Db) (ds : List Definition) : Bool :=
  coreB db.schema && ds.all (ensurableB db) && decide (ds.Pairwise fun d d1 => (apartB d d1 && apartB d1 d) = true) &&
  ds.all fun d => d.attributes.all fun p => p.2.valid && bootB fun b => decide (AMap.get b.identMap p.1 = none)

theorem ensurableAllB_spec {db : Db} {ds : List Definition} (h : ensurableAllB db ds = true)
    (hpp : ∀ d ∈ ds, (∀ db v, d.pre db v = .ok db) ∧ ∀ db v, d.post db v = .ok db) :
    CoreIntact db.schema ∧ EnsurableAll db ds := by
  simp only [ensurableAllB, Bool.and_eq_true, decide_eq_true_eq, List.all_eq_true] at h
  obtain ⟨⟨⟨h1, h2⟩, h3⟩, h4⟩ := h
  have hc := coreB_spec h1
  refine ⟨hc, fun d hd => ensurableB_spec hc (h2 d hd), h3.imp fun h => ⟨apartB_spec h.1, apartB_spec h.2⟩,
    fun d hd k x hm => valid_iff.1 (h4 d hd (k, x) hm).1, fun d hd k x hm b hb => ?_, fun d hd => (hpp d hd).1,
    fun d hd => (hpp d hd).2⟩
  obtain ⟨b', hb', he⟩ := bootB_spec (h4 d hd (k, x) hm).2
  rw [hb] at hb'
  obtain rfl := Res.ok.inj hb'
  exact of_decide_eq_true he

def boats : Definition := .new (kw "x" "boats") 1 [(kw "boat" "name", { valueType := .string })]
def cars : Definition := .new (kw "x" "cars") 7 [(kw "car" "plate", { valueType := .string, unique := some .value, index := true })]
def cars' : Definition := .new (kw "x" "cars") 7 (cars.attributes ++ [(kw "car" "owner", { valueType := .ref })])
def pets : Definition := .new (kw "a" "pets") 1 [(kw "pet" "name", { valueType := .string, multival := true })]

def boats2 : Definition := .new (kw "x" "boats") 2 [(kw "boat" "name", { valueType := .string, multival := true })]
def planes : Definition := .new (kw "a" "planes") 1 [(kw "plane" "name", { valueType := .string })]

/-- Ensure twice: the conditions, and the outcomes of the second time. -/
def ensureTwice (first second : List Definition) : Option (AMap Keyword VOutcome) :=
  if ensurableAllB bootDb first then
    match ensureVocabularies bootDb 0 first with
    | .ok (db, _) => if ensurableAllB db second then
        (match ensureVocabularies db 0 second with
        | .ok (_, out) => some out
        | _ => none) else none
    | _ => none
  else none

theorem ensureTwice_spec {first second : List Definition} {out} (key : ensureTwice first second = some out)
    (hp1 : ∀ d ∈ first, (∀ db v, d.pre db v = .ok db) ∧ ∀ db v, d.post db v = .ok db)
    (hp2 : ∀ d ∈ second, (∀ db v, d.pre db v = .ok db) ∧ ∀ db v, d.post db v = .ok db) :
    ∃ db db', ReachSteady db ∧ CoreIntact db.schema ∧ EnsurableAll db second ∧
      ensureVocabularies db 0 second = .ok (db', out) := by
  unfold ensureTwice at key
  by_cases h1 : ensurableAllB bootDb first = true
  · rw [if_pos h1] at key
    cases h2 : ensureVocabularies bootDb 0 first with
    | err _ => rw [h2] at key; cases key
    | panic => rw [h2] at key; cases key
    | ok q =>
      obtain ⟨db, out0⟩ := q
      rw [h2] at key
      simp only at key
      by_cases h3 : ensurableAllB db second = true
      · rw [if_pos h3] at key
        obtain ⟨g1, g2⟩ := ensurableAllB_spec h1 hp1
        have g3 := ensureAll_ensures (.boot bootDb_eq) g1 g2 h2
        obtain ⟨g4, g5⟩ := ensurableAllB_spec h3 hp2
        cases h4 : ensureVocabularies db 0 second with
        | err _ => rw [h4] at key; cases key
        | panic => rw [h4] at key; cases key
        | ok q' =>
          obtain ⟨db', out'⟩ := q'
          rw [h4] at key
          obtain rfl := Option.some.inj key
          exact ⟨db, db', g3.steady, g4, g5, h4⟩
      · rw [if_neg h3] at key; cases key
  · rw [if_neg h1] at key; cases key

/-- The conditions of `C43_all_partial` are met by four definitions of which one is upgraded, one gets
a missing attribute, one exists and one is installed. -/
theorem C43_all_example : ∃ db db' out, ReachSteady db ∧ CoreIntact db.schema ∧ EnsurableAll db [boats2, cars', pets, planes] ∧
    ensureVocabularies db 0 [boats2, cars', pets, planes] = .ok (db', out) ∧
    AMap.get out boats2.name = some .upgraded ∧ AMap.get out cars'.name = some .installedMissing ∧
    AMap.get out pets.name = some .existed ∧ AMap.get out planes.name = some .installed := by
  have key : ensureTwice [boats, cars, pets] [boats2, cars', pets, planes] =
      some [(pets.name, .existed), (planes.name, .installed), (boats2.name, .upgraded), (cars'.name, .installedMissing)] := by
    decide +kernel
  have hp1 : ∀ d ∈ [boats, cars, pets], (∀ db v, d.pre db v = .ok db) ∧ ∀ db v, d.post db v = .ok db := by
    intro d hd
    simp only [List.mem_cons, List.not_mem_nil, or_false] at hd
    rcases hd with rfl | rfl | rfl <;> exact ⟨fun _ _ => rfl, fun _ _ => rfl⟩
  have hp2 : ∀ d ∈ [boats2, cars', pets, planes], (∀ db v, d.pre db v = .ok db) ∧ ∀ db v, d.post db v = .ok db := by
    intro d hd
    simp only [List.mem_cons, List.not_mem_nil, or_false] at hd
    rcases hd with rfl | rfl | rfl | rfl <;> exact ⟨fun _ _ => rfl, fun _ _ => rfl⟩
  obtain ⟨db, db', h1, h2, h3, h4⟩ := ensureTwice_spec key hp1 hp2
  exact ⟨db, db', _, h1, h2, h3, h4, by decide +kernel, by decide +kernel, by decide +kernel, by decide +kernel⟩

/-! ### Sharing -/

/-- An attribute belongs to one vocabulary only: `:db.schema/attribute` is unique (bootstrap.rs:193). -/
theorem one_owner {db : Db} (hr : ReachKept db) (hc : CoreIntact db.schema) {e e' v}
    (h : Has db.store.rows e DB_SCHEMA_ATTRIBUTE v) (h' : Has db.store.rows e' DB_SCHEMA_ATTRIBUTE v) : e = e' := by
  obtain ⟨hi, -⟩ := rowsInv_reach hr
  obtain ⟨at_, hat, hu⟩ := hc.attr (e := DB_SCHEMA_ATTRIBUTE) (p := fun at_ => at_.unique.isSome) (by decide +kernel)
  obtain ⟨r, hr, he, ha, rfl⟩ := h
  obtain ⟨r', hr', he', ha', hv⟩ := h'
  have flag : ∀ x ∈ db.store.rows, x.a = DB_SCHEMA_ATTRIBUTE → x.uniq = true := by
    intro x hx hxa
    obtain ⟨at', hat', -, hfl, -⟩ := hi.typed x hx
    rw [hxa, hat] at hat'
    cases hat'
    rw [hfl, hu]
  rw [← he, ← he', uniqueOk_av hi.uniq hr hr' (flag r hr ha) (flag r' hr' ha') (ha.trans ha'.symm) hv.symm]

/-- C43: two vocabularies that are both present have no attribute in common. -/
theorem C43_apart {db : Db} (hr : ReachSteady db) (hc : CoreIntact db.schema) {d d1 : Definition} (hne : d.name ≠ d1.name)
    (h : checkVocabulary db d = .ok .present) (h1 : checkVocabulary db d1 = .ok .present) {k x y}
    (hm : (k, x) ∈ d.attributes) : (k, y) ∉ d1.attributes := by
  intro hm1
  have hV := C43_check hc d
  have hV1 := C43_check hc d1
  rw [h] at hV
  rw [h1] at hV1
  obtain ⟨e, q1, q2⟩ := hV
  obtain ⟨e1, p1, p2⟩ := hV1
  obtain ⟨a, a1, a2, -⟩ := q2 k x hm
  obtain ⟨b, b1, b2, -⟩ := p2 k y hm1
  obtain rfl := Option.some.inj (a1.symm.trans b1)
  obtain rfl := one_owner hr.safe.kept hc a2 b2
  have him := (identMaps_reach hr.idents).2.1
  have hir := (rowsInv_reach hr.safe.kept).1.identRows hc.identAttr'
  have := hir.one _ _ _ ((him _ _).1 q1.1) ((him _ _).1 p1.1)
  injection this with this
  exact hne this

/-- C43: a definition that wants an attribute another vocabulary has is refused. -/
theorem C43_shared_refused {db : Db} {now : Int} (hr : ReachSteady db) (hc : CoreIntact db.schema) {d d1 : Definition}
    (hne : d.name ≠ d1.name) (h : checkVocabulary db d = .ok .present) {k x y} (hm : (k, x) ∈ d.attributes)
    (hm1 : (k, y) ∈ d1.attributes) (hE : Ensurable db d1) (hpre : ∀ db v, d1.pre db v = .ok db)
    (hpost : ∀ db v, d1.post db v = .ok db) (hval : ∀ k x, (k, x) ∈ d1.attributes → ValidAttribute x)
    (hcore : ∀ k x, (k, x) ∈ d1.attributes → ∀ b, bootstrapSchema = .ok b → AMap.get b.identMap k = none) :
    ∀ db' o, ensureVocabulary db now d1 ≠ .ok (db', o) := by
  intro db' o hens
  have hEn := ensure_ensures hr hc hE hpre hpost hens
  have hr' := hEn.steady hval
  have hc' := hEn.core hcore
  have hV := C43_check hc d
  have hV1 := C43_check hc' d1
  rw [h] at hV
  rw [hEn.present] at hV1
  obtain ⟨e, q1, q2⟩ := hV
  obtain ⟨e1, p1, p2⟩ := hV1
  obtain ⟨a, a1, a2, -⟩ := q2 k x hm
  obtain ⟨b, b1, b2, -⟩ := p2 k y hm1
  obtain rfl := Option.some.inj ((hEn.names _ _ a1).symm.trans b1)
  obtain rfl := one_owner hr'.safe.kept hc' (hEn.refs _ _ a2) b2
  have him := (identMaps_reach hr'.idents).2.1
  have hir := (rowsInv_reach hr'.safe.kept).1.identRows hc'.identAttr'
  have := hir.one _ _ _ ((him _ _).1 (hEn.names _ _ q1.1)) ((him _ _).1 p1.1)
  injection this with this
  exact hne this

/-- Two vocabularies with an attribute in common. -/
def things : Definition := .new (kw "x" "boats") 1 [(kw "thing" "name", { valueType := .string })]
def things' : Definition := .new (kw "x" "cars") 1 [(kw "thing" "name", { valueType := .string })]

/-- Both can be ensured in a new store, but not together: the first part of the work is lost with the
second. -/
theorem C43_shared_example : Ensurable bootDb things ∧ Ensurable bootDb things' ∧
    ensureVocabularies bootDb 0 [things, things'] = .err .sqlConstraint := by
  have key : (match ensureVocabularies bootDb 0 [things, things'] with
    | .err e => decide (e = .sqlConstraint)
    | _ => false) = true := by decide +kernel
  have spec : ∀ r : Res (Db × AMap Keyword VOutcome), (match r with
    | .err e => decide (e = .sqlConstraint)
    | _ => false) = true → r = .err .sqlConstraint := by
    intro r h
    cases r with
    | err e => rw [of_decide_eq_true h]
    | ok _ => cases h
    | panic => cases h
  exact ⟨ensurableB_spec boot_core (by decide +kernel), ensurableB_spec boot_core (by decide +kernel), spec _ key⟩

end Mentat
