import Verif.Model.Vocabulary
/-
Sources of vocabularies, which may act on the store before and after the vocabularies are worked on:
src/vocabulary.rs:626-847.

The `InProgress` a function is given is the store; a function that commits it is not modelled (the
documentation forbids it).  What an error leaves behind in the `InProgress` is not part of the result.
-/
namespace Mentat

/-- vocabulary.rs:784-803 `VocabularySource`.  `pre` is given the vocabularies that need work, with what
the check said (vocabulary.rs:630-659 `VocabularyStatus`). -/
structure VSource where
  definitions : List Definition
  pre : Db → AMap Keyword (Definition × VCheck) → Res Db := fun db _ => .ok db
  post : Db → Res Db := fun db => .ok db

/-- vocabulary.rs:807-847 `SimpleVocabularySource`: functions that may be absent and are not given the
checks. -/
def VSource.simple (ds : List Definition) (pre post : Option (Db → Res Db)) : VSource :=
  { definitions := ds
    pre := fun db _ => match pre with
      | some f => f db
      | none => .ok db
    post := fun db => match post with
      | some f => f db
      | none => .ok db }

/-- vocabulary.rs:652-654 `VocabularyStatus::get` -/
def statusGet (checks : AMap Keyword (Definition × VCheck)) (name : Keyword) : Option (Definition × VCheck) :=
  AMap.get checks name

/-- vocabulary.rs:656-658 `VocabularyStatus::version`: the version of the definition. -/
def statusVersion (checks : AMap Keyword (Definition × VCheck)) (name : Keyword) : Option Nat :=
  (AMap.get checks name).map fun p => p.1.version

/-- vocabulary.rs:750-775: the three rounds of work. -/
def doWork (now : Int) (work : AMap Keyword (Definition × VCheck)) (db : Db) (out : AMap Keyword VOutcome) :
    Res (Db × AMap Keyword VOutcome) :=
  let items := sortByName work
  (workRound now (fun db d c => match c with
    | .notPresent => some (installVocabulary db now d)
    | _ => none) items db out).bind fun (db1, out1) =>
  (workRound now (fun db d c => match c with
    | .needsUpdate v => some (upgradeVocabulary db now d v)
    | _ => none) items db1 out1).bind fun (db2, out2) =>
  workRound now (fun db d c => match c with
    | .missing m => some (installAttributesFor db now d m)
    | _ => none) items db2 out2

/-- vocabulary.rs:710-779 `ensure_vocabularies` -/
def ensureSource (db : Db) (now : Int) (src : VSource) : Res (Db × AMap Keyword VOutcome) :=
  (checkAll db src.definitions [] []).bind fun (out, work) =>
  if work.isEmpty then .ok (db, out) else
  (src.pre db work).bind fun db1 =>
  (doWork now work db1 out).bind fun (db2, out2) =>
  (src.post db2).bind fun db3 => .ok (db3, out2)

end Mentat
