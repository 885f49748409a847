import Verif.Model.Trie
import Verif.Model.Partition
/-
Tempid resolution: db/src/upsert_resolution.rs and tx.rs:178-231, 722-838.
-/
namespace Mentat

/-- edn/src/entities.rs `enum TempId`. -/
inductive TempId where
  | external (s : Text)
  | internal (n : Nat)
  deriving DecidableEq, Repr

/-- Lexicographic order of strings by code point (Rust's order on `str`). -/
def Text.le : Text → Text → Bool
  | [], _ => true
  | _ :: _, [] => false
  | c :: r, d :: s => if c = d then Text.le r s else decide (c.toNat < d.toNat)

/-- Derived `Ord` of `TempId`: `External(_) < Internal(_)`. -/
def TempId.le : TempId → TempId → Bool
  | .external s, .external t => Text.le s t
  | .external _, .internal _ => true
  | .internal _, .external _ => false
  | .internal m, .internal n => decide (m ≤ n)

/-- internal_types.rs:148 `TermWithTempIds`; `Either` is `Sum`. -/
abbrev TTerm := Term (Sum Entid TempId) (Sum TypedValue TempId)

/-- internal_types.rs:133 `TempIdMap`. -/
abbrev TempIdMap := AMap TempId Entid

/-- upsert_resolution.rs:37 `UpsertE(TEMPID, a, v)`. -/
structure UpsertE where
  t : TempId
  a : Entid
  v : TypedValue
  deriving DecidableEq, Repr

/-- upsert_resolution.rs:41 `UpsertEV(TEMPID, a, OTHERID)`. -/
structure UpsertEV where
  t1 : TempId
  a : Entid
  t2 : TempId
  deriving DecidableEq, Repr

/-- upsert_resolution.rs:49-71 `Generation`. -/
structure Generation where
  upsertsE : List UpsertE := []
  upsertsEV : List UpsertEV := []
  allocations : List TTerm := []
  upserted : List RTerm := []
  resolved : List RTerm := []
  deriving DecidableEq, Repr

/-- the closure `is_unique` of upsert_resolution.rs:95-98 -/
def isUniqueIdentity (s : Schema) (a : Entid) : Res Bool :=
  match s.attr a with
  | none => .err .unrecognizedEntid
  | some at_ => .ok (decide (at_.unique = some .identity))

/-- `op == Add && is_unique(a)?` (short circuit). -/
def addAndUnique (s : Schema) (op : Op) (a : Entid) : Res Bool :=
  match op with
  | .add => isUniqueIdentity s a
  | .retract => .ok false

/-- upsert_resolution.rs:87-133 `Generation::from`: the generation and the inert terms. -/
def Generation.from (s : Schema) : List TTerm → Generation → List RTerm → Res (Generation × List RTerm)
  | [], g, inert => .ok (g, inert)
  | x :: xs, g, inert =>
    match x.e, x.v with
    | .inr e, .inr v =>
      match addAndUnique s x.op x.a with
      | .ok true => Generation.from s xs { g with upsertsEV := g.upsertsEV ++ [⟨e, x.a, v⟩] } inert
      | .ok false => Generation.from s xs { g with allocations := g.allocations ++ [x] } inert
      | .err er => .err er
      | .panic => .panic
    | .inr e, .inl v =>
      match addAndUnique s x.op x.a with
      | .ok true => Generation.from s xs { g with upsertsE := g.upsertsE ++ [⟨e, x.a, v⟩] } inert
      | .ok false => Generation.from s xs { g with allocations := g.allocations ++ [x] } inert
      | .err er => .err er
      | .panic => .panic
    | .inl _, .inr _ => Generation.from s xs { g with allocations := g.allocations ++ [x] } inert
    | .inl e, .inl v => Generation.from s xs g (inert ++ [⟨x.op, e, x.a, v⟩])

/-- upsert_resolution.rs:137-139 `can_evolve` -/
def Generation.canEvolve (g : Generation) : Bool := !g.upsertsE.isEmpty

/-- upsert_resolution.rs:155-165 -/
def Generation.stepE (m : TempIdMap) (g : Generation) (u : UpsertE) : Generation :=
  match AMap.get m u.t with
  | some n => { g with upserted := g.upserted ++ [⟨.add, n, u.a, u.v⟩] }
  | none => { g with allocations := g.allocations ++ [⟨.add, .inr u.t, u.a, .inl u.v⟩] }

/-- upsert_resolution.rs:167-182 -/
def Generation.stepEV (m : TempIdMap) (g : Generation) (u : UpsertEV) : Generation :=
  match AMap.get m u.t1, AMap.get m u.t2 with
  | some _, some n2 => { g with upsertsE := g.upsertsE ++ [⟨u.t1, u.a, .ref n2⟩] }
  | none, some n2 => { g with upsertsE := g.upsertsE ++ [⟨u.t1, u.a, .ref n2⟩] }
  | some n1, none => { g with allocations := g.allocations ++ [⟨.add, .inl n1, u.a, .inr u.t2⟩] }
  | none, none => { g with upsertsEV := g.upsertsEV ++ [u] }

/-- upsert_resolution.rs:186-234; `unreachable!()` for a term without tempids. -/
def Generation.stepA (m : TempIdMap) (g : Generation) (x : TTerm) : Res Generation :=
  match x.e, x.v with
  | .inr t1, .inr t2 =>
    match AMap.get m t1, AMap.get m t2 with
    | some n1, some n2 => .ok { g with resolved := g.resolved ++ [⟨x.op, n1, x.a, .ref n2⟩] }
    | none, some n2 => .ok { g with allocations := g.allocations ++ [⟨x.op, .inr t1, x.a, .inl (.ref n2)⟩] }
    | some n1, none => .ok { g with allocations := g.allocations ++ [⟨x.op, .inl n1, x.a, .inr t2⟩] }
    | none, none => .ok { g with allocations := g.allocations ++ [x] }
  | .inr t, .inl v =>
    match AMap.get m t with
    | some n => .ok { g with resolved := g.resolved ++ [⟨x.op, n, x.a, v⟩] }
    | none => .ok { g with allocations := g.allocations ++ [x] }
  | .inl e, .inr t =>
    match AMap.get m t with
    | some n => .ok { g with resolved := g.resolved ++ [⟨x.op, e, x.a, .ref n⟩] }
    | none => .ok { g with allocations := g.allocations ++ [x] }
  | .inl _, .inl _ => .panic

/-- upsert_resolution.rs:186-234: the loop. -/
def Generation.stepAs (m : TempIdMap) : List TTerm → Generation → Res Generation
  | [], g => .ok g
  | x :: xs, g =>
    match Generation.stepA m g x with
    | .ok g' => Generation.stepAs m xs g'
    | .err e => .err e
    | .panic => .panic

/-- upsert_resolution.rs:145-227 `evolve_one_step`.  `next` starts from the default generation with
`resolved` carried over; the previous `upserted` is not carried over. -/
def Generation.evolveOneStep (g : Generation) (m : TempIdMap) : Res Generation :=
  let next : Generation := { resolved := g.resolved }
  let next := g.upsertsE.foldl (Generation.stepE m) next
  let next := g.upsertsEV.foldl (Generation.stepEV m) next
  Generation.stepAs m g.allocations next

/-- upsert_resolution.rs:230-239 `temp_id_avs` -/
def Generation.tempIdAvs (g : Generation) : List (TempId × Entid × TypedValue) :=
  g.upsertsE.map fun u => (u.t, u.a, u.v)

/-- tx.rs:178-231 `resolve_temp_id_avs`, loop body at 207-218; `none` in the accumulator
records a conflict. -/
def resolveTempIdAvs (st : Store) :
    List (TempId × Entid × TypedValue) → TempIdMap → Bool → Res TempIdMap
  | [], m, conflict => if conflict then .err .conflictingUpserts else .ok m
  | (t, a, v) :: r, m, conflict =>
    match st.lookupAV a v with
    | some n =>
      match AMap.get m t with
      | some prev => resolveTempIdAvs st r (AMap.insert m t n) (conflict || decide (n ≠ prev))
      | none => resolveTempIdAvs st r (AMap.insert m t n) conflict
    | none => resolveTempIdAvs st r m conflict

/-- tx.rs:757-778: record each tempid that resolves; a different previous resolution is a
conflict. -/
def recordTempIds : TempIdMap → TempIdMap → Bool → Res TempIdMap
  | [], acc, conflict => if conflict then .err .conflictingUpserts else .ok acc
  | (t, n) :: r, acc, conflict =>
    match AMap.get acc t with
    | some prev => recordTempIds r (AMap.insert acc t n) (conflict || decide (n ≠ prev))
    | none => recordTempIds r (AMap.insert acc t n) conflict

/-- One iteration of tx.rs:739-781. -/
def evolveStep (st : Store) (g : Generation) (tempids : TempIdMap) : Res (Generation × TempIdMap) := do
  let m ← resolveTempIdAvs st g.tempIdAvs [] false
  let g' ← g.evolveOneStep m
  let tempids' ← recordTempIds m tempids false
  pure (g', tempids')

/-- tx.rs:738-781: `while generation.can_evolve() { ... }`, `none` if still running after `fuel`
iterations. -/
def evolveLoop (st : Store) : Nat → Generation → TempIdMap → Option (Res (Generation × TempIdMap))
  | fuel, g, tempids =>
    if g.canEvolve then
      match fuel with
      | 0 => none
      | fuel + 1 =>
        match evolveStep st g tempids with
        | .ok (g', tempids') => evolveLoop st fuel g' tempids'
        | .err e => some (.err e)
        | .panic => some .panic
    else some (.ok (g, tempids))

/-- upsert_resolution.rs:242-253 `allocate_unresolved_upserts` -/
def Generation.allocateUnresolved (g : Generation) : Generation :=
  { g with upsertsEV := [],
           allocations := g.allocations ++
             g.upsertsEV.map fun u => ⟨.add, .inr u.t1, u.a, .inr u.t2⟩ }

/-- Insertion into a sorted set of tempids (`BTreeSet`). -/
def insertTempId (t : TempId) : List TempId → List TempId
  | [] => [t]
  | u :: r => if t = u then u :: r else if TempId.le t u then t :: u :: r else u :: insertTempId t r

/-- upsert_resolution.rs:282-317: tempids mentioned by `:db/add` allocations (sorted), and the
tempids grouped by the identity [a v] they assert. -/
def allocationsScan (s : Schema) : List TTerm → List TempId →
    AMap (Entid × Sum TypedValue TempId) (List TempId) →
    Res (List TempId × AMap (Entid × Sum TypedValue TempId) (List TempId))
  | [], ids, avs => .ok (ids, avs)
  | x :: xs, ids, avs =>
    match x.op with
    | .retract => allocationsScan s xs ids avs
    | .add =>
      match x.e, x.v with
      | .inr t1, .inr t2 =>
        match isUniqueIdentity s x.a with
        | .ok u => allocationsScan s xs (insertTempId t2 (insertTempId t1 ids))
            (if u then AMap.insert avs (x.a, .inr t2)
              ((match AMap.get avs (x.a, .inr t2) with | some l => l | none => []) ++ [t1]) else avs)
        | .err er => .err er
        | .panic => .panic
      | .inr t, .inl v =>
        match isUniqueIdentity s x.a with
        | .ok u => allocationsScan s xs (insertTempId t ids)
            (if u then AMap.insert avs (x.a, .inl v)
              ((match AMap.get avs (x.a, .inl v) with | some l => l | none => []) ++ [t]) else avs)
        | .err er => .err er
        | .panic => .panic
      | .inl _, .inr t => allocationsScan s xs (insertTempId t ids) avs
      | .inl _, .inl _ => .panic

/-- Union-find (petgraph `UnionFind`) as a map from element to representative.  Only the
partition is observable: labels are renumbered densely afterwards. -/
abbrev UF := AMap TempId TempId

/-- The representative. -/
def UF.find (uf : UF) (t : TempId) : TempId :=
  match AMap.get uf t with
  | some r => r
  | none => t

/-- `union` -/
def UF.union (uf : UF) (x y : TempId) : UF :=
  let rx := UF.find uf x
  let ry := UF.find uf y
  List.map (fun (p : TempId × TempId) => (p.1, if p.2 = ry then rx else p.2)) uf

/-- upsert_resolution.rs:337-343 -/
def UF.unionGroup (uf : UF) : List TempId → UF
  | [] => uf
  | t :: ts => (t :: ts).foldl (fun uf x => UF.union uf t x) uf

/-- position of `r` in an `IndexSet` (first occurrence) -/
def indexOf? (r : TempId) : List TempId → Option Nat
  | [] => none
  | x :: xs => if x = r then some 0 else (indexOf? r xs).map (· + 1)

/-- upsert_resolution.rs:355-361: dense labels in sorted tempid order. -/
def denseLabels (uf : UF) : List TempId → List TempId → AMap TempId Nat → AMap TempId Nat
  | [], _, acc => acc
  | t :: ts, reps, acc =>
    let r := UF.find uf t
    let reps' := setInsert reps r
    match indexOf? r reps' with
    | some i => denseLabels uf ts reps' (AMap.insert acc t i)
    | none => denseLabels uf ts reps' acc

/-- upsert_resolution.rs:259-355 `temp_ids_in_allocations` -/
def Generation.tempIdsInAllocations (s : Schema) (g : Generation) : Res (AMap TempId Nat) := do
  Res.assert (g.upsertsE = [])
  Res.assert (g.upsertsEV = [])
  let (ids, avs) ← allocationsScan s g.allocations [] []
  let uf : UF := ids.map fun t => (t, t)
  let uf := (avs.map (·.2)).foldl UF.unionGroup uf
  pure (denseLabels uf ids [] [])

/-- upsert_resolution.rs:387-420: one allocation, with the allocated entids. -/
def finalTerm (m : TempIdMap) (x : TTerm) : Res RTerm :=
  let missing : Res RTerm := match x.op with
    | .add => .panic
    | .retract => .err .notYetImplemented
  match x.e, x.v with
  | .inr t1, .inr t2 =>
    match AMap.get m t1, AMap.get m t2 with
    | some n1, some n2 => .ok ⟨x.op, n1, x.a, .ref n2⟩
    | _, _ => missing
  | .inr t, .inl v =>
    match AMap.get m t with
    | some n => .ok ⟨x.op, n, x.a, v⟩
    | none => missing
  | .inl e, .inr t =>
    match AMap.get m t with
    | some n => .ok ⟨x.op, e, x.a, .ref n⟩
    | none => missing
  | .inl _, .inl _ => .panic

/-- upsert_resolution.rs:387-420: the loop. -/
def finalTerms (m : TempIdMap) : List TTerm → Res (List RTerm)
  | [] => .ok []
  | x :: xs =>
    match finalTerm m x with
    | .ok y => match finalTerms m xs with
      | .ok ys => .ok (y :: ys)
      | .err e => .err e
      | .panic => .panic
    | .err e => .err e
    | .panic => .panic

/-- upsert_resolution.rs:73-83 `FinalPopulations` and 359-407 `into_final_populations`. -/
structure FinalPopulations where
  upserted : List RTerm
  resolved : List RTerm
  allocated : List RTerm
  deriving DecidableEq, Repr

/-- upsert_resolution.rs:359-407 `into_final_populations` -/
def Generation.intoFinal (g : Generation) (m : TempIdMap) : Res FinalPopulations := do
  Res.assert (g.upsertsE = [])
  Res.assert (g.upsertsEV = [])
  let allocated ← finalTerms m g.allocations
  pure { upserted := g.upserted, resolved := g.resolved, allocated := allocated }

/-- tx.rs:808-812: "Every tempid should be allocated at most once." -/
def recordAllocated : TempIdMap → TempIdMap → Res TempIdMap
  | [], acc => .ok acc
  | (t, n) :: r, acc =>
    if AMap.contains acc t then .panic else recordAllocated r (AMap.insert acc t n)

/-- A bound on the number of loop iterations (proved sufficient: `evolveLoop_terminates`). -/
def Generation.measure (g : Generation) : Nat := g.upsertsEV.length + 1

/-- Outcome of pipeline stage 3. -/
structure Stage3 where
  pops : FinalPopulations
  inert : List RTerm
  tempids : TempIdMap
  user : Partition
  deriving DecidableEq, Repr

/-- tx.rs:738-781 with fuel `measure`; `none` never happens (`evolveLoop_terminates`). -/
def evolve (st : Store) (g : Generation) : Res (Generation × TempIdMap) :=
  match evolveLoop st g.measure g [] with
  | some r => r
  | none => .panic

/-- tx.rs:722-820: tempids -> terms without tempids.  `ids` is the interned tempid set. -/
def resolveTempIds (s : Schema) (st : Store) (user : Partition) (terms : List TTerm)
    (ids : List TempId) : Res Stage3 := do
  let (g, inert) ← Generation.from s terms {} []
  let (g, tempids) ← evolve st g
  let g := g.allocateUnresolved
  let labels ← g.tempIdsInAllocations s
  let (start, user') ← user.allocate labels.length
  let allocs : TempIdMap := labels.map fun (p : TempId × Nat) => (p.1, start + (p.2 : Int))
  let pops ← g.intoFinal allocs
  let tempids ← recordAllocated allocs tempids
  Res.assert (tempids.length = ids.length)
  Res.assert (∀ t ∈ ids, AMap.contains tempids t)
  pure { pops := pops, inert := inert, tempids := tempids, user := user' }

end Mentat
