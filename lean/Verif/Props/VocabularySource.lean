import Verif.Model.VocabularySource
import Verif.Props.Vocabularies
/-
C98: what the functions of a source of vocabularies are called for, told and answerable for.
-/
namespace Mentat

/-! ### The checks -/

theorem checkAll_present {db : Db} : ∀ (l : List Definition) (o : AMap Keyword VOutcome) (w : AMap Keyword (Definition × VCheck)),
    (∀ d ∈ l, checkVocabulary db d = .ok .present) →
    ∃ o', checkAll db l o w = .ok (o', w) ∧ (∀ d ∈ l, AMap.get o' d.name = some .existed) ∧
      ∀ k, (∀ d ∈ l, d.name ≠ k) → AMap.get o' k = AMap.get o k
  | [], o, w, _ => ⟨o, rfl, by simp, fun _ _ => rfl⟩
  | d :: r, o, w, hl => by
    obtain ⟨o', h1, h2, h3⟩ := checkAll_present r (AMap.insert o d.name .existed) w
      fun d' hd' => hl d' (List.mem_cons_of_mem _ hd')
    refine ⟨o', ?_, ?_, ?_⟩
    · rw [checkAll, hl d (by simp)]
      exact h1
    · intro d' hd'
      rcases List.mem_cons.1 hd' with rfl | hd'
      · by_cases hin : ∃ d'' ∈ r, d''.name = d'.name
        · obtain ⟨d'', hd'', e⟩ := hin
          rw [← e]; exact h2 d'' hd''
        · rw [h3 _ fun d'' hd'' e => hin ⟨d'', hd'', e⟩, AMap.get_insert_self]
      · exact h2 d' hd'
    · intro k hk
      rw [h3 k fun d' hd' => hk d' (List.mem_cons_of_mem _ hd'), AMap.get_insert_ne _ _ (hk d (by simp))]

/-- The checks depend on the store only through the verdict on each definition. -/
theorem checkAll_same {db db1 : Db} : ∀ (l : List Definition) (o : AMap Keyword VOutcome)
    (w : AMap Keyword (Definition × VCheck)), (∀ d ∈ l, checkVocabulary db1 d = checkVocabulary db d) →
    checkAll db1 l o w = checkAll db l o w
  | [], _, _, _ => rfl
  | d :: r, o, w, h => by
    have ih := fun o w => checkAll_same r o w fun d' hd' => h d' (List.mem_cons_of_mem _ hd')
    rw [checkAll, checkAll, h d (by simp)]
    cases checkVocabulary db d with
    | err _ => rfl
    | panic => rfl
    | ok c => cases c <;> first | rfl | exact ih _ _

theorem ensureVocabularies_work {db : Db} {now : Int} {ds : List Definition} {out work}
    (h : checkAll db ds [] [] = .ok (out, work)) (hw : work.isEmpty = false) :
    ensureVocabularies db now ds = doWork now work db out := by
  unfold ensureVocabularies
  rw [h]
  show (if work.isEmpty then _ else _) = _
  rw [hw]
  rfl

theorem ensureSource_iff {db db' : Db} {now : Int} {src : VSource} {out'} :
    ensureSource db now src = .ok (db', out') ↔
    ∃ out work, checkAll db src.definitions [] [] = .ok (out, work) ∧
      (work.isEmpty = true ∧ db' = db ∧ out' = out ∨
       work.isEmpty = false ∧ ∃ db1 db2, src.pre db work = .ok db1 ∧ doWork now work db1 out = .ok (db2, out') ∧
        src.post db2 = .ok db') := by
  unfold ensureSource
  rw [Res.bind_ok_iff]
  constructor
  · rintro ⟨⟨out, work⟩, h1, h2⟩
    refine ⟨out, work, h1, ?_⟩
    dsimp only at h2
    cases hw : work.isEmpty with
    | true =>
      rw [hw] at h2
      obtain ⟨rfl, rfl⟩ := Prod.mk.inj (Res.ok.inj h2)
      exact .inl ⟨rfl, rfl, rfl⟩
    | false =>
      rw [hw] at h2
      simp only [Bool.false_eq_true, if_false, Res.bind_ok_iff] at h2
      obtain ⟨db1, h3, ⟨db2, o2⟩, h4, db3, h5, h6⟩ := h2
      obtain ⟨rfl, rfl⟩ := Prod.mk.inj (Res.ok.inj h6)
      exact .inr ⟨rfl, db1, db2, h3, h4, h5⟩
  · rintro ⟨out, work, h1, ⟨h2, rfl, rfl⟩ | ⟨h2, db1, db2, h3, h4, h5⟩⟩
    · refine ⟨_, h1, ?_⟩
      dsimp only
      rw [h2]; rfl
    · refine ⟨_, h1, ?_⟩
      dsimp only
      rw [h2]
      simp only [Bool.false_eq_true, if_false, Res.bind_ok_iff]
      exact ⟨db1, h3, _, h4, db', h5, rfl⟩

/-- What `pre` is told is right: it names the definitions that are not present, with the verdict on
each, and their versions. -/
structure PreTold (db : Db) (ds : List Definition) (checks : AMap Keyword (Definition × VCheck)) : Prop where
  each : ∀ d ∈ ds, ∀ c, checkVocabulary db d = .ok c → c ≠ .present →
    statusGet checks d.name = some (d, c) ∧ statusVersion checks d.name = some d.version
  only : ∀ name d c, statusGet checks name = some (d, c) →
    d ∈ ds ∧ d.name = name ∧ checkVocabulary db d = .ok c ∧ c ≠ .present
  /-- there is something to do, and nothing that cannot be done -/
  some : ∃ d ∈ ds, checkVocabulary db d ≠ .ok .present
  older : ∀ d ∈ ds, ∀ v, checkVocabulary db d ≠ .ok (.tooNew v)

theorem amap_get_mem {K V : Type} [DecidableEq K] : ∀ {m : AMap K V} {k v}, AMap.get m k = some v → (k, v) ∈ m
  | [], k, v, h => by cases h
  | (k', v') :: r, k, v, h => by
    unfold AMap.get at h
    split at h
    · next e => subst e; obtain rfl := Option.some.inj h; simp
    · exact List.mem_cons_of_mem _ (amap_get_mem h)

theorem checkAll_preTold {db : Db} {ds : List Definition} {out work} (hn : (ds.map (·.name)).Nodup)
    (h : checkAll db ds [] [] = .ok (out, work)) (hw : work.isEmpty = false) : PreTold db ds work := by
  obtain ⟨c1, -, c3⟩ := checkAll_spec ds [] [] hn (by simp) (by simp) h
  rw [List.nil_append] at c3
  have hnd : (work.map (·.1)).Nodup := by
    rw [c3]
    exact filterMap_nodup (key := (·.name)) (fun d it hd => (todo_some hd).1) hn
  have hall : ∀ d ∈ ds, ∀ c, checkVocabulary db d = .ok c → c ≠ .present → AMap.get work d.name = some (d, c) := by
    intro d hd c hc hne
    refine get_of_nodup hnd ?_
    rw [c3, List.mem_filterMap]
    refine ⟨d, hd, ?_⟩
    unfold todo
    rw [hc]
    cases c <;> first | rfl | exact absurd rfl hne
  refine ⟨fun d hd c hc hne => ⟨hall d hd c hc hne, by rw [statusVersion, hall d hd c hc hne]; rfl⟩, ?_, ?_, ?_⟩
  · intro name d c hg
    have := amap_get_mem hg
    rw [c3, List.mem_filterMap] at this
    obtain ⟨d', hd', ht⟩ := this
    obtain ⟨t1, t2, t3, t4⟩ := todo_some ht
    dsimp only at t1 t2 t3 t4
    subst t2
    exact ⟨hd', t1.symm, t3, t4⟩
  · cases work with
    | nil => cases hw
    | cons it r =>
      have : it ∈ ds.filterMap (todo db) := c3 ▸ List.mem_cons_self
      obtain ⟨d, hd, ht⟩ := List.mem_filterMap.1 this
      obtain ⟨t1, t2, t3, t4⟩ := todo_some ht
      exact ⟨d, hd, fun e => t4 (Res.ok.inj (t3.symm.trans e))⟩
  · intro d hd v e
    obtain ⟨c, hc, hv⟩ := c1 d hd
    exact hv v (Res.ok.inj (hc.symm.trans e))

/-! ### C98 -/

/-- C98: when every definition is present the functions are not called — the result is the same
whatever they do — and nothing changes. -/
theorem C98_idle {db : Db} {now : Int} {src : VSource} (h : ∀ d ∈ src.definitions, checkVocabulary db d = .ok .present) :
    ∃ out, ensureSource db now src = .ok (db, out) ∧ (∀ d ∈ src.definitions, AMap.get out d.name = some .existed) ∧
      ∀ k, (∀ d ∈ src.definitions, d.name ≠ k) → AMap.get out k = none := by
  obtain ⟨out, h1, h2, h3⟩ := checkAll_present src.definitions [] [] h
  exact ⟨out, ensureSource_iff.2 ⟨out, [], h1, .inl ⟨rfl, rfl, rfl⟩⟩, h2, fun k hk => by rw [h3 k hk]; rfl⟩

/-- C98: otherwise success means that `pre` was called on the store as it was, told what needs doing,
and succeeded, and that `post` succeeded on what came of it. -/
theorem C98_called {db db' : Db} {now : Int} {src : VSource} {out} (hn : (src.definitions.map (·.name)).Nodup)
    (h : ensureSource db now src = .ok (db', out)) (hw : ∃ d ∈ src.definitions, checkVocabulary db d ≠ .ok .present) :
    ∃ checks db1 db2, PreTold db src.definitions checks ∧ src.pre db checks = .ok db1 ∧ src.post db2 = .ok db' := by
  obtain ⟨out0, work, h1, ⟨h2, -, -⟩ | ⟨h2, db1, db2, h3, -, h5⟩⟩ := ensureSource_iff.1 h
  · obtain ⟨d, hd, hne⟩ := hw
    obtain ⟨c1, -, c3⟩ := checkAll_spec src.definitions [] [] hn (by simp) (by simp) h1
    obtain ⟨c, hc, -⟩ := c1 d hd
    have : (d.name, d, c) ∈ work := by
      rw [c3, List.nil_append, List.mem_filterMap]
      refine ⟨d, hd, ?_⟩
      unfold todo
      rw [hc]
      cases c <;> first | rfl | exact absurd hc hne
    rw [List.isEmpty_iff.1 h2] at this
    cases this
  · exact ⟨work, db1, db2, checkAll_preTold hn h1 h2, h3, h5⟩

/-- C98: an error of `pre` or `post`, whenever they are called, is an error of the whole. -/
theorem C98_refused {db : Db} {now : Int} {src : VSource} (hn : (src.definitions.map (·.name)).Nodup)
    (hw : ∃ d ∈ src.definitions, checkVocabulary db d ≠ .ok .present)
    (h : (∀ checks db1, PreTold db src.definitions checks → src.pre db checks ≠ .ok db1) ∨ ∀ db2 db3, src.post db2 ≠ .ok db3) :
    ∀ r, ensureSource db now src ≠ .ok r := by
  rintro ⟨db', out⟩ hr
  obtain ⟨checks, db1, db2, h1, h2, h3⟩ := C98_called hn hr hw
  rcases h with h | h
  · exact h checks db1 h1 h2
  · exact h db2 db' h3

/-- C98: if `pre` leaves a steady store in which the verdicts on the definitions are what they were,
then the store `post` gets has every definition, with the right outcomes, and as little changed since
`pre` as C43 says.  (Missing: a `pre` that changes verdicts, for which this fails, see
`C98_fails_newer`; definitions that share names, see `C98_fails_doubled`.) -/
theorem C98_ensured_partial {db db' : Db} {now : Int} {src : VSource} {out}
    (hw : ∃ d ∈ src.definitions, checkVocabulary db d ≠ .ok .present)
    (hn : (src.definitions.map (·.name)).Nodup)
    (hpre : ∀ checks db1, PreTold db src.definitions checks → src.pre db checks = .ok db1 →
      ReachSteady db1 ∧ CoreIntact db1.schema ∧ EnsurableAll db1 src.definitions ∧
      ∀ d ∈ src.definitions, checkVocabulary db1 d = checkVocabulary db d)
    (h : ensureSource db now src = .ok (db', out)) :
    ∃ checks db1 db2, PreTold db src.definitions checks ∧ src.pre db checks = .ok db1 ∧
      EnsuredAll db1 src.definitions db2 out ∧ src.post db2 = .ok db' := by
  obtain ⟨out0, work, h1, ⟨h2, -, -⟩ | ⟨h2, db1, db2, h3, h4, h5⟩⟩ := ensureSource_iff.1 h
  · exfalso
    obtain ⟨d, hd, hne⟩ := hw
    obtain ⟨c1, -, c3⟩ := checkAll_spec src.definitions [] [] hn (by simp) (by simp) h1
    obtain ⟨c, hc, -⟩ := c1 d hd
    have : (d.name, d, c) ∈ work := by
      rw [c3, List.nil_append, List.mem_filterMap]
      refine ⟨d, hd, ?_⟩
      unfold todo
      rw [hc]
      cases c <;> first | rfl | exact absurd hc hne
    rw [List.isEmpty_iff.1 h2] at this
    cases this
  · have ht := checkAll_preTold hn h1 h2
    obtain ⟨p1, p2, p3, p4⟩ := hpre work db1 ht h3
    refine ⟨work, db1, db2, ht, h3, ?_, h5⟩
    refine ensureAll_ensures p1 p2 p3 ?_ (now := now)
    rw [ensureVocabularies_work ((checkAll_same _ _ _ p4).trans h1) h2]
    exact h4

/-- C98: and then, if `post` leaves the definitions present, a source with the same definitions finds
nothing to do: its functions are not called. -/
theorem C98_again_partial {db db' : Db} {now now' : Int} {src src' : VSource} {out}
    (hw : ∃ d ∈ src.definitions, checkVocabulary db d ≠ .ok .present)
    (hn : (src.definitions.map (·.name)).Nodup)
    (hpre : ∀ checks db1, PreTold db src.definitions checks → src.pre db checks = .ok db1 →
      ReachSteady db1 ∧ CoreIntact db1.schema ∧ EnsurableAll db1 src.definitions ∧
      ∀ d ∈ src.definitions, checkVocabulary db1 d = checkVocabulary db d)
    (hpost : ∀ db2 db3, src.post db2 = .ok db3 → ∀ d ∈ src.definitions, checkVocabulary db2 d = .ok .present →
      checkVocabulary db3 d = .ok .present)
    (h : ensureSource db now src = .ok (db', out)) (hs : src'.definitions = src.definitions) :
    ∃ out', ensureSource db' now' src' = .ok (db', out') ∧ ∀ d ∈ src.definitions, AMap.get out' d.name = some .existed := by
  obtain ⟨-, db1, db2, -, -, h3, h4⟩ := C98_ensured_partial hw hn hpre h
  have hp : ∀ d ∈ src'.definitions, checkVocabulary db' d = .ok .present := by
    rw [hs]
    exact fun d hd => hpost db2 db' h4 d hd (h3.present d hd)
  obtain ⟨out', q1, q2, -⟩ := C98_idle (now := now') hp
  exact ⟨out', q1, hs ▸ q2⟩

/-! ### Examples -/

def boatsU : Definition :=
  .new (kw "x" "boats") 2 [(kw "boat" "name", { valueType := .string, unique := some .value, index := true })]

/-- Two boats of one name. -/
def boatsTx : Tx := ([addT "a" 65536 (str "Argo"), addT "b" 65536 (str "Argo")], [tid "a", tid "b"])

/-- A `pre` that takes the name from the second. -/
def renameBoat (db : Db) : Res Db := (transactTerms db 0 [retE 65539 65536 (str "Argo")] []).bind fun p => .ok p.1

def boatSource : VSource := .simple [boatsU, planes] (some renameBoat) none

def boatDb : Option Db :=
  match ensureVocabularies bootDb 0 [boats] with
  | .ok (db, _) => runWith steadyB [boatsTx] db
  | _ => none

def boatKey (db : Db) : Bool :=
  (match runWith steadyB [([retE 65539 65536 (str "Argo")], [])] db with
  | some db1 => ensurableAllB db1 [boatsU, planes] &&
      [boatsU, planes].all fun d => decide (checkVocabulary db1 d = checkVocabulary db d)
  | none => false) &&
  decide (checkVocabulary db planes = .ok .notPresent) &&
  (match ensureSource db 0 boatSource with
  | .ok (_, out) => decide (AMap.get out boatsU.name = some .upgraded) && decide (AMap.get out planes.name = some .installed)
  | _ => false) &&
  (match ensureVocabularies db 0 [boatsU, planes] with
  | .err e => decide (e = .schemaAlterationFailed)
  | _ => false)

theorem steadyB_step (db db' : Db) (h : ReachSteady db) (ht : Transacts db db') (hk : KeepsUsedAttributes db db')
    (ho : steadyB db db' = true) : ReachSteady db' := by
  simp only [steadyB, identsOkB, Bool.and_eq_true] at ho
  obtain ⟨⟨⟨⟨⟨o1, o2⟩, o3⟩, o4⟩, o5⟩, o6⟩ := ho
  exact .step h ht ⟨hk, identAttrB_spec o1, noIdentMovesB_spec o2, schemaOneB_iff.1 o3,
    cleanRemovalB_spec o4, keepsUniqueB_spec o5, safeB_spec o6⟩

theorem runWith_single {ok : Db → Db → Bool} {terms ids} {db db' : Db} (h : runWith ok [(terms, ids)] db = some db') :
    ∃ rep, transactTerms db 0 terms ids = .ok (db', rep) := by
  unfold runWith at h
  by_cases hk : KnownTerms db terms
  · rw [if_pos hk] at h
    cases ht : transactTerms db 0 terms ids with
    | err _ => rw [ht] at h; cases h
    | panic => rw [ht] at h; cases h
    | ok r =>
      rw [ht] at h
      dsimp only at h
      split at h
      · split at h
        · obtain rfl := Option.some.inj h
          exact ⟨r.2, rfl⟩
        · cases h
      · cases h
  · rw [if_neg hk] at h; cases h

/-- The conditions of `C98_ensured_partial` are met by a source whose `pre` cleans up the data so that
an attribute can become unique; without it the upgrade is refused. -/
theorem C98_example : ∃ db db' out, ReachSteady db ∧
    (∃ d ∈ boatSource.definitions, checkVocabulary db d ≠ .ok .present) ∧
    (boatSource.definitions.map (·.name)).Nodup ∧
    (∀ checks db1, PreTold db boatSource.definitions checks → boatSource.pre db checks = .ok db1 →
      ReachSteady db1 ∧ CoreIntact db1.schema ∧ EnsurableAll db1 boatSource.definitions ∧
      ∀ d ∈ boatSource.definitions, checkVocabulary db1 d = checkVocabulary db d) ∧
    ensureSource db 0 boatSource = .ok (db', out) ∧
    AMap.get out boatsU.name = some .upgraded ∧ AMap.get out planes.name = some .installed ∧
    ensureVocabularies db 0 [boatsU, planes] = .err .schemaAlterationFailed := by
  have hp : ∀ l ∈ [[boats], [boatsU, planes]], ∀ d ∈ l, (∀ db v, d.pre db v = .ok db) ∧ ∀ db v, d.post db v = .ok db := by
    intro l hl d hd
    simp only [List.mem_cons, List.not_mem_nil, or_false] at hl
    rcases hl with rfl | rfl <;> simp only [List.mem_cons, List.not_mem_nil, or_false] at hd
    · subst hd; exact ⟨fun _ _ => rfl, fun _ _ => rfl⟩
    · rcases hd with rfl | rfl <;> exact ⟨fun _ _ => rfl, fun _ _ => rfl⟩
  have h0 : ensurableAllB bootDb [boats] = true := by decide +kernel
  have key : boatDb.any boatKey = true := by decide +kernel
  cases hb : boatDb with
  | none => rw [hb] at key; cases key
  | some db =>
    rw [hb] at key
    simp only [Option.any_some, boatKey, Bool.and_eq_true, decide_eq_true_eq] at key
    obtain ⟨⟨⟨k1, k2⟩, k3⟩, k4⟩ := key
    have hr : ReachSteady db := by
      unfold boatDb at hb
      cases he : ensureVocabularies bootDb 0 [boats] with
      | err _ => rw [he] at hb; cases hb
      | panic => rw [he] at hb; cases hb
      | ok q =>
        rw [he] at hb
        obtain ⟨g1, g2⟩ := ensurableAllB_spec h0 (hp _ (by simp))
        exact runWith_induct steadyB_step (ensureAll_ensures (.boot bootDb_eq) g1 g2 he).steady hb
    cases hs : ensureSource db 0 boatSource with
    | err _ => rw [hs] at k3; cases k3
    | panic => rw [hs] at k3; cases k3
    | ok q =>
      rw [hs] at k3
      simp only [Bool.and_eq_true, decide_eq_true_eq] at k3
      refine ⟨db, q.1, q.2, hr, ⟨planes, by simp [boatSource, VSource.simple], by rw [k2]; simp⟩, by decide, ?_, hs, k3.1, k3.2, ?_⟩
      · intro checks db1 _ hpre
        cases hw : runWith steadyB [([retE 65539 65536 (str "Argo")], [])] db with
        | none => rw [hw] at k1; cases k1
        | some db2 =>
          rw [hw] at k1
          simp only [Bool.and_eq_true, List.all_eq_true, decide_eq_true_eq] at k1
          obtain ⟨rep, ht⟩ := runWith_single hw
          have e : db2 = db1 := by
            have hpre' : renameBoat db = .ok db1 := hpre
            unfold renameBoat at hpre'
            rw [ht] at hpre'
            exact Res.ok.inj hpre'
          subst e
          obtain ⟨g1, g2⟩ := ensurableAllB_spec k1.1 (hp _ (by simp))
          exact ⟨runWith_induct steadyB_step hr hw, g1, g2, k1.2⟩
      · cases hv : ensureVocabularies db 0 [boatsU, planes] with
        | ok _ => rw [hv] at k4; cases k4
        | panic => rw [hv] at k4; cases k4
        | err e => rw [hv] at k4; rw [of_decide_eq_true k4]

/-! ### Where it fails -/

def boatsNewer : Definition := .new (kw "x" "boats") 2 (boats.attributes ++ [(kw "boat" "owner", { valueType := .ref })])
def boatsOther : Definition := .new (kw "x" "boats") 1 [(kw "boat" "owner", { valueType := .ref })]

/-- A `pre` that ensures a newer version of the vocabulary. -/
def newerSource : VSource := .simple [boats] (some fun db => (ensureVocabulary db 0 boatsNewer).bind fun p => .ok p.1) none

/-- C98 fails for a `pre` that changes a verdict: the verdicts given before it are acted on, so that the
newer version it installed, which would be refused by a check, is replaced by the older one. -/
theorem C98_fails_newer : ∃ db1 v1 db' out v2, newerSource.pre bootDb [] = .ok db1 ∧
    checkVocabulary db1 boatsNewer = .ok .present ∧ checkVocabulary db1 boats = .ok (.tooNew v1) ∧
    ensureSource bootDb 0 newerSource = .ok (db', out) ∧ AMap.get out boats.name = some .installed ∧
    checkVocabulary db' boatsNewer = .ok (.needsUpdate v2) := by
  have key : (match newerSource.pre bootDb [], ensureSource bootDb 0 newerSource with
    | .ok db1, .ok (db', out) => decide (checkVocabulary db1 boatsNewer = .ok .present) &&
        (match checkVocabulary db1 boats with
        | .ok (.tooNew _) => true
        | _ => false) && decide (AMap.get out boats.name = some .installed) &&
        (match checkVocabulary db' boatsNewer with
        | .ok (.needsUpdate _) => true
        | _ => false)
    | _, _ => false) = true := by decide +kernel
  split at key
  · next db1 db' out h1 h2 =>
    simp only [Bool.and_eq_true, decide_eq_true_eq] at key
    obtain ⟨⟨⟨k1, k2⟩, k3⟩, k4⟩ := key
    split at k2
    · next v1 h3 =>
      split at k4
      · next v2 h4 => exact ⟨db1, v1, db', out, v2, h1, k1, h3, h2, k3, h4⟩
      · cases k4
    · cases k2
  · cases key

/-- C98 fails for two definitions of one name: only the last is worked on, and success is reported for
the name though the other is not there. -/
theorem C98_fails_doubled : ∃ db' out m, ensureSource bootDb 0 ⟨[boats, boatsOther], fun db _ => .ok db, .ok⟩ = .ok (db', out) ∧
    AMap.get out boats.name = some .installed ∧ checkVocabulary db' boatsOther = .ok .present ∧
    checkVocabulary db' boats = .ok (.missing m) := by
  have key : (match ensureSource bootDb 0 ⟨[boats, boatsOther], fun db _ => .ok db, .ok⟩ with
    | .ok (db', out) => decide (AMap.get out boats.name = some .installed) &&
        decide (checkVocabulary db' boatsOther = .ok .present) &&
        (match checkVocabulary db' boats with
        | .ok (.missing _) => true
        | _ => false)
    | _ => false) = true := by decide +kernel
  split at key
  · next db' out h1 =>
    simp only [Bool.and_eq_true, decide_eq_true_eq] at key
    obtain ⟨⟨k1, k2⟩, k3⟩ := key
    split at k3
    · next m h3 => exact ⟨db', out, m, h1, k1, k2, h3⟩
    · cases k3
  · cases key

end Mentat
