import Verif.Props.VocabularySource
/-
C98, continued: the functions a definition runs before and after an upgrade.
-/
namespace Mentat

/-- The same definition with other functions. -/
def Definition.running (d : Definition) (pre post : Db → Vocabulary → Res Db) : Definition := { d with pre, post }

theorem Ensurable.running {db : Db} {d : Definition} {p q} (h : Ensurable db d) : Ensurable db (d.running p q) :=
  ⟨h.1, h.2, h.3, h.4, h.5⟩

theorem Ensured.of_running {db db' : Db} {d : Definition} {p q} (h : Ensured db (d.running p q) db') : Ensured db d db' :=
  ⟨h.present, h.attributes, h.others, h.names, h.vocabularies, h.core, h.steady,
    fun d1 ha => h.undisturbed d1 ⟨ha.1, ha.2, ha.3, ha.4⟩, h.refs⟩

/-- C98: the functions of a definition are called for upgrades only: whenever the verdict is another,
the result is the same whatever they do. -/
theorem C98_uncalled {db : Db} {now : Int} {d : Definition} (h : ∀ v, checkVocabulary db d ≠ .ok (.needsUpdate v))
    (pre post : Db → Vocabulary → Res Db) :
    ensureVocabulary db now { d with pre, post } = ensureVocabulary db now d := by
  unfold ensureVocabulary
  show (checkVocabulary db d).bind _ = _
  cases hc : checkVocabulary db d with
  | err _ => rfl
  | panic => rfl
  | ok c => cases c <;> first | rfl | exact absurd hc (h _)

/-- C98: an upgrade calls `pre` with the store as it was and the version found there, and `post` with
the same version; if either refuses, so does the whole; and if `pre` leaves a steady store with that
version, then what `post` gets has the definition, with as little changed since `pre` as C43 says.
(Missing: a `pre` that changes the version found.) -/
theorem C98_upgraded_partial {db db' : Db} {now : Int} {d : Definition} {v : Vocabulary} {out : VOutcome}
    (hv : checkVocabulary db d = .ok (.needsUpdate v))
    (hpre : ∀ db1, d.pre db v = .ok db1 → ReachSteady db1 ∧ CoreIntact db1.schema ∧ Ensurable db1 d ∧
      checkVocabulary db1 d = .ok (.needsUpdate v))
    (h : ensureVocabulary db now d = .ok (db', out)) :
    out = .upgraded ∧ ∃ db1 db2, d.pre db v = .ok db1 ∧ Ensured db1 d db2 ∧ d.post db2 v = .ok db' := by
  unfold ensureVocabulary at h
  rw [hv] at h
  change upgradeVocabulary db now d v = _ at h
  unfold upgradeVocabulary at h
  simp only [Res.bind_ok_iff] at h
  obtain ⟨db1, h1, ts, h2, db2, h3, db3, h4, h5⟩ := h
  obtain ⟨rfl, rfl⟩ := Prod.mk.inj (Res.ok.inj h5)
  obtain ⟨p1, p2, p3, p4⟩ := hpre db1 h1
  refine ⟨rfl, db1, db2, h1, ?_, h4⟩
  refine Ensured.of_running (p := fun db _ => .ok db) (q := fun db _ => .ok db)
    (ensure_ensures (now := now) (out := .upgraded) p1 p2 p3.running (fun _ _ => rfl) (fun _ _ => rfl) ?_)
  unfold ensureVocabulary
  show (checkVocabulary db1 d).bind _ = _
  rw [p4]
  show upgradeVocabulary db1 now (d.running (fun db _ => .ok db) fun db _ => .ok db) v = _
  unfold upgradeVocabulary
  simp only [Res.bind_ok_iff]
  exact ⟨db1, rfl, ts, h2, db2, h3, db2, rfl, rfl⟩

/-- C98: a refusal by either function of a definition refuses the upgrade. -/
theorem C98_upgrade_refused {db : Db} {now : Int} {d : Definition} {v : Vocabulary}
    (hv : checkVocabulary db d = .ok (.needsUpdate v))
    (h : (∀ db1, d.pre db v ≠ .ok db1) ∨ ∀ db2 db3, d.post db2 v ≠ .ok db3) :
    ∀ r, ensureVocabulary db now d ≠ .ok r := by
  rintro r hr
  unfold ensureVocabulary at hr
  rw [hv] at hr
  change upgradeVocabulary db now d v = _ at hr
  unfold upgradeVocabulary at hr
  simp only [Res.bind_ok_iff] at hr
  obtain ⟨db1, h1, ts, h2, db2, h3, db3, h4, -⟩ := hr
  rcases h with h | h
  · exact h db1 h1
  · exact h db2 db3 h4

/-! ### An example -/

/-- Boats with unique names, cleaning up before the upgrade and naming another boat after it. -/
def boatsOwn : Definition :=
  { boatsU with
    pre := fun db v => if v.version = 1 then renameBoat db else .err .other
    post := fun db _ => (transactTerms db 0 [addT "c" 65536 (str "Fram")] [tid "c"]).bind fun p => .ok p.1 }

def ownKey (db : Db) : Bool :=
  (match checkVocabulary db boatsOwn, runWith steadyB [([retE 65539 65536 (str "Argo")], [])] db with
  | .ok (.needsUpdate v), some db1 => ensurableAllB db1 [boatsU] && decide (checkVocabulary db1 boatsOwn = .ok (.needsUpdate v))
  | _, _ => false) &&
  (match ensureVocabulary db 0 boatsOwn with
  | .ok (db', o) => decide (o = .upgraded) && db'.store.rows.any fun r => decide (r.v = str "Fram")
  | _ => false) &&
  (match ensureVocabulary db 0 boatsU with
  | .err e => decide (e = .schemaAlterationFailed)
  | _ => false)

/-- The conditions of `C98_upgraded_partial` are met by a definition that cleans up the data before an
attribute becomes unique; without that the upgrade is refused. -/
theorem C98_upgrade_example : ∃ db v db', checkVocabulary db boatsOwn = .ok (.needsUpdate v) ∧
    (∀ db1, boatsOwn.pre db v = .ok db1 → ReachSteady db1 ∧ CoreIntact db1.schema ∧ Ensurable db1 boatsOwn ∧
      checkVocabulary db1 boatsOwn = .ok (.needsUpdate v)) ∧
    ensureVocabulary db 0 boatsOwn = .ok (db', .upgraded) ∧ (∃ r ∈ db'.store.rows, r.v = str "Fram") ∧
    ensureVocabulary db 0 boatsU = .err .schemaAlterationFailed := by
  have h0 : ensurableAllB bootDb [boats] = true := by decide +kernel
  have key : boatDb.any ownKey = true := by decide +kernel
  have hid : ∀ d' ∈ [boats, boatsU], ∀ d ∈ [d'], (∀ db v, d.pre db v = .ok db) ∧ ∀ db v, d.post db v = .ok db := by
    intro d' hd' d hd
    simp only [List.mem_cons, List.not_mem_nil, or_false] at hd hd'
    subst hd
    rcases hd' with rfl | rfl <;> exact ⟨fun _ _ => rfl, fun _ _ => rfl⟩
  cases hb : boatDb with
  | none => rw [hb] at key; cases key
  | some db =>
    rw [hb] at key
    simp only [Option.any_some, ownKey, Bool.and_eq_true] at key
    obtain ⟨⟨k1, k2⟩, k3⟩ := key
    have hr : ReachSteady db := by
      unfold boatDb at hb
      cases he : ensureVocabularies bootDb 0 [boats] with
      | err _ => rw [he] at hb; cases hb
      | panic => rw [he] at hb; cases hb
      | ok q =>
        rw [he] at hb
        obtain ⟨g1, g2⟩ := ensurableAllB_spec h0 (hid boats (by simp))
        exact runWith_induct steadyB_step (ensureAll_ensures (.boot bootDb_eq) g1 g2 he).steady hb
    split at k1
    · next v db2 hv hw =>
      simp only [Bool.and_eq_true, decide_eq_true_eq] at k1
      obtain ⟨rep, ht⟩ := runWith_single hw
      split at k2
      · next db' o ho =>
        simp only [Bool.and_eq_true, decide_eq_true_eq, List.any_eq_true] at k2
        obtain ⟨rfl, r, hr1, hr2⟩ := k2
        refine ⟨db, v, db', hv, ?_, ho, ⟨r, hr1, hr2⟩, ?_⟩
        · intro db1 hpre
          have e : db2 = db1 := by
            change (if v.version = 1 then renameBoat db else .err .other) = _ at hpre
            split at hpre
            · unfold renameBoat at hpre
              rw [ht] at hpre
              exact Res.ok.inj hpre
            · cases hpre
          subst e
          obtain ⟨g1, g2⟩ := ensurableAllB_spec k1.1 (hid boatsU (by simp))
          exact ⟨runWith_induct steadyB_step hr hw, g1, (g2.each boatsU (by simp)).running, k1.2⟩
        · cases hu : ensureVocabulary db 0 boatsU with
          | ok _ => rw [hu] at k3; cases k3
          | panic => rw [hu] at k3; cases k3
          | err e => rw [hu] at k3; rw [of_decide_eq_true k3]
      · cases k2
    · cases k1

end Mentat
