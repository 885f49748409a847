import Verif.Model.Store
/-
Splitting rows over SQL statements: db/src/db.rs:758-826 `resolve_avs`, 893-962
`insert_non_fts_searches`, 964-1085 `insert_fts_searches`; db/src/lib.rs:113-121 `repeat_values`.
`maxVars` is SQLite's limit on variables (`SQLITE_LIMIT_VARIABLE_NUMBER`), which the program reads at
run time.
-/
namespace Mentat

/-- `itertools::Itertools::chunks`: consecutive chunks of `n`, the last possibly shorter. -/
def chunksOf {α : Type} (n : Nat) : Nat → List α → List (List α)
  | 0, _ => []
  | _ + 1, [] => []
  | fuel + 1, x :: r => (x :: r).take n :: chunksOf n fuel ((x :: r).drop n)

/-- `chunks` asserts that the size is not zero. -/
def chunks {α : Type} (n : Nat) (l : List α) : Res (List (List α)) :=
  if n = 0 then .panic else .ok (chunksOf n l.length l)

/-- db.rs:893-962 `insert_non_fts_searches`, and the shape of `resolve_avs`: the rows of each
statement, with `bindings` variables per row.  The assertion of 791 and 938 is made before each
statement; as a panic discards the SQLite transaction, it does not matter which one fails. -/
def statements {α : Type} (bindings maxVars : Nat) (rows : List α) : Res (List (List α)) :=
  (chunks (maxVars / bindings) rows).bind fun cs =>
  if cs.all fun c => decide (bindings * c.length < maxVars) then .ok cs else .panic

/-- lib.rs:113-121 `repeat_values` -/
def repeatValues (perTuple tuples : Nat) : Res Text :=
  if perTuple = 0 ∨ tuples = 0 then .panic
  else
    let inner := '(' :: (List.intercalate [',', ' '] (List.replicate perTuple ['?'])) ++ [')']
    .ok (List.intercalate [',', ' '] (List.replicate tuples inner))

/-- db.rs:758-826 `resolve_avs`, one statement: the pairs [a v] with their search ids joined with
the datoms. -/
def joinAvs (rows : List Row) (block : List (Nat × Entid × TypedValue)) : List (Nat × Entid) :=
  block.flatMap fun (i, a, v) =>
    (rows.filter fun r => r.avet && decide (r.a = a ∧ r.v = v)).map fun r => (i, r.e)

/-- db.rs:816-824: from search ids back to the pairs; `avs[index]` is checked, and a later entry for a
pair replaces an earlier one (`collect` into a `HashMap`). -/
def collectAvs (avs : List (Entid × TypedValue)) : List (Nat × Entid) → AMap (Entid × TypedValue) Entid →
    Res (AMap (Entid × TypedValue) Entid)
  | [], m => .ok m
  | (i, e) :: r, m => match avs[i - 2000]? with
    | some av => collectAvs avs r (AMap.insert m av e)
    | none => .panic

/-- db.rs:758-826 `resolve_avs` -/
def resolveAvs (maxVars : Nat) (rows : List Row) (avs : List (Entid × TypedValue)) :
    Res (AMap (Entid × TypedValue) Entid) :=
  (statements 4 maxVars (avs.zipIdx.map fun (x, i) => (i + 2000, x.1, x.2))).bind fun cs =>
  collectAvs avs (cs.flatMap (joinAvs rows)) []

/-- db.rs:994-1024: within a chunk, number the strings not seen before. -/
def numberStrings {α : Type} [DecidableEq α] : List α → List α → List α × List α
  | [], seen => ([], seen)
  | s :: r, seen =>
    if s ∈ seen then numberStrings r seen
    else let p := numberStrings r (seen ++ [s]); (s :: p.1, p.2)

/-- db.rs:964-1085 `insert_fts_searches`, on the strings of the rows: for each chunk the strings it
inserts into the full-text table, and the rows it then looks up.  `repeat_values(2, string_count)`
(1041) asserts there is at least one. -/
def ftsStatements {α : Type} [DecidableEq α] (maxVars : Nat) : List (List α) → List α → Res (List (List α × List α))
  | [], _ => .ok []
  | c :: r, seen =>
    let p := numberStrings c seen
    (repeatValues 2 p.1.length).bind fun _ =>
    if 6 * c.length < maxVars then
      (ftsStatements maxVars r p.2).bind fun rest => .ok ((p.1, c) :: rest)
    else .panic

/-- db.rs:964-1085 `insert_fts_searches`: all chunks. -/
def insertFts {α : Type} [DecidableEq α] (maxVars : Nat) (rows : List α) : Res (List (List α × List α)) :=
  (chunks (maxVars / 6) rows).bind fun cs => ftsStatements maxVars cs []

end Mentat
