import Verif.Model.Transact
/-
The attribute cache (db/src/cache.rs): four maps per attribute, kept up to date by a watcher of the
transactor, with a copy-on-write overlay while a transaction is in progress.

The `attr` field of the four per-attribute caches is left out: it is 0 everywhere (the caches are
made by `Default::default()`), so the `assert_eq!(self.attr, other.attr)` of `absorb` holds.
String interning (cache.rs:171-204 `AevFactory`) does not change values.  `BTreeMap` and `BTreeSet`
iteration order is not modelled: association lists keep the order of insertion.
-/
namespace Mentat

/-- cache.rs:169 `Aev` -/
abbrev Aev := Entid × Entid × TypedValue

/-- cache.rs:253-256 `SingleValAttributeCache::e_v`; `none` marks a deleted value. -/
abbrev SingleVals := AMap Entid (Option TypedValue)
/-- cache.rs:317-320 `MultiValAttributeCache::e_vs` -/
abbrev MultiVals := AMap Entid (List TypedValue)
/-- cache.rs:389-392 `UniqueReverseAttributeCache::v_e` -/
abbrev UniqueReverse := AMap TypedValue (Option Entid)
/-- cache.rs:447-450 `NonUniqueReverseAttributeCache::v_es` -/
abbrev NonUniqueReverse := AMap TypedValue (List Entid)

/-- cache.rs:281-304 `SingleValAttributeCache::remove`: the entry becomes the sentinel `None` whatever
value it held. -/
def SingleVals.remove (m : SingleVals) (ev : Entid × TypedValue) : SingleVals :=
  AMap.insert m ev.1 none

/-- cache.rs:307-309 `set` -/
def SingleVals.set (m : SingleVals) (ev : Entid × TypedValue) : SingleVals :=
  AMap.insert m ev.1 (some ev.2)

/-- cache.rs:355-372 `MultiValAttributeCache::remove` -/
def MultiVals.remove (m : MultiVals) (ev : Entid × TypedValue) : MultiVals :=
  match AMap.get m ev.1 with
  | some vs => AMap.insert m ev.1 (vs.filter fun v => decide (v ≠ ev.2))
  | none => m

/-- cache.rs:375-377 `acc` -/
def MultiVals.acc (m : MultiVals) (ev : Entid × TypedValue) : MultiVals :=
  AMap.insert m ev.1 (((AMap.get m ev.1).getD []) ++ [ev.2])

/-- cache.rs:407-430 `UniqueReverseAttributeCache::remove` -/
def UniqueReverse.remove (m : UniqueReverse) (ev : Entid × TypedValue) : UniqueReverse :=
  AMap.insert m ev.2 none

/-- cache.rs:433-435 `set` -/
def UniqueReverse.set (m : UniqueReverse) (ev : Entid × TypedValue) : UniqueReverse :=
  AMap.insert m ev.2 (some ev.1)

/-- cache.rs:472-489 `NonUniqueReverseAttributeCache::remove` -/
def NonUniqueReverse.remove (m : NonUniqueReverse) (ev : Entid × TypedValue) : NonUniqueReverse :=
  match AMap.get m ev.2 with
  | some es => AMap.insert m ev.2 (es.filter fun e => decide (e ≠ ev.1))
  | none => m

/-- cache.rs:492-494 `acc` -/
def NonUniqueReverse.acc (m : NonUniqueReverse) (ev : Entid × TypedValue) : NonUniqueReverse :=
  AMap.insert m ev.2 (setInsert ((AMap.get m ev.2).getD []) ev.1)

/-- cache.rs:651-659 `AttributeCaches` -/
structure Caches where
  forward : List Entid := []
  reverse : List Entid := []
  single : AMap Entid SingleVals := []
  multi : AMap Entid MultiVals := []
  unique : AMap Entid UniqueReverse := []
  nonUnique : AMap Entid NonUniqueReverse := []
  deriving DecidableEq, Repr

/-- cache.rs:636-648 `AccumulationBehavior` -/
inductive Behavior where
  | add (replacing : Bool)
  | remove
  deriving DecidableEq, Repr

/-- cache.rs:636-648 `is_replacing` -/
def Behavior.isReplacing : Behavior → Bool
  | .add r => r
  | .remove => false

/-- What an entry is before accumulation: the entry itself, or (cache.rs:671-812 `fsc` ... `both_m_nu`)
the fallback's, if given, or empty; `clear`ed when replacing. -/
def startEntry {K V : Type} (m : AMap Entid (AMap K V)) (fallback : Option (AMap Entid (AMap K V)))
    (a : Entid) (b : Behavior) : AMap K V :=
  if b.isReplacing then [] else
  match AMap.get m a with
  | some x => x
  | none => (fallback.bind fun f => AMap.get f a).getD []

/-- One entry after accumulating a run of rows (cache.rs:513-630 `accumulate_*`). -/
def accumEntry {K V : Type} (add remove : AMap K V → Entid × TypedValue → AMap K V)
    (m : AMap Entid (AMap K V)) (fallback : Option (AMap Entid (AMap K V))) (a : Entid)
    (evs : List (Entid × TypedValue)) (b : Behavior) : AMap Entid (AMap K V) :=
  AMap.insert m a (evs.foldl (match b with | .add _ => add | .remove => remove)
    (startEntry m fallback a b))

/-- cache.rs:816-960 `accumulate_evs` on a run `evs` of rows with attribute `a`.  If the schema does
not know `a` the iterator is not advanced and the caller loops forever (modelled as a panic: the call
does not return); if `a` is cached in neither direction, `unreachable!()`. -/
def Caches.accumulateRun (c : Caches) (fallback : Option Caches) (s : Schema) (b : Behavior)
    (run : Entid × List (Entid × TypedValue)) : Res Caches :=
  match s.attr run.1 with
  | none => .panic
  | some at_ =>
    let nf := decide (run.1 ∈ c.forward)
    let nr := decide (run.1 ∈ c.reverse)
    let ff := fallback.filter fun f => nf && decide (run.1 ∈ f.forward) && !b.isReplacing
    let rf := fallback.filter fun f => nr && decide (run.1 ∈ f.reverse) && !b.isReplacing
    if !nf && !nr then .panic else
    .ok { c with
      single := if nf && !at_.multival then
          accumEntry SingleVals.set SingleVals.remove c.single (ff.map (·.single)) run.1 run.2 b
        else c.single
      multi := if nf && at_.multival then
          accumEntry MultiVals.acc MultiVals.remove c.multi (ff.map (·.multi)) run.1 run.2 b
        else c.multi
      unique := if nr && at_.unique.isSome then
          accumEntry UniqueReverse.set UniqueReverse.remove c.unique (rf.map (·.unique)) run.1 run.2 b
        else c.unique
      nonUnique := if nr && !at_.unique.isSome then
          accumEntry NonUniqueReverse.acc NonUniqueReverse.remove c.nonUnique
            (rf.map (·.nonUnique)) run.1 run.2 b
        else c.nonUnique }

/-- Rows split into maximal runs of one attribute (cache.rs:501-511 `with_aev_iter`). -/
def runs : List Aev → List (Entid × List (Entid × TypedValue))
  | [] => []
  | (a, ev) :: r =>
    match runs r with
    | [] => [(a, [ev])]
    | (a', evs) :: rest => if a = a' then (a, ev :: evs) :: rest else (a, [ev]) :: (a', evs) :: rest

/-- cache.rs:501-511: each run in turn. -/
def Caches.accumulateRuns (fallback : Option Caches) (s : Schema) (b : Behavior) :
    List (Entid × List (Entid × TypedValue)) → Caches → Res Caches
  | [], c => .ok c
  | r :: rest, c =>
    (c.accumulateRun fallback s b r).bind fun c' => Caches.accumulateRuns fallback s b rest c'

/-- cache.rs:962-976 `accumulate_into_cache` -/
def Caches.accumulate (c : Caches) (fallback : Option Caches) (s : Schema) (rows : List Aev)
    (b : Behavior) : Res Caches :=
  Caches.accumulateRuns fallback s b (runs rows) c

/-- cache.rs:1366-1386 `update_with_fallback` -/
def Caches.update (c : Caches) (fallback : Option Caches) (s : Schema) (retractions assertions : List Aev) :
    Res Caches :=
  (c.accumulate fallback s retractions .remove).bind fun c' =>
    c'.accumulate fallback s assertions (.add false)

/-- The rows `SELECT a, e, v ... WHERE a = ?` yields (cache.rs:1040-1064; `ORDER BY a, e` fixes an order
that does not matter here). -/
def aevsOf (rows : List Row) (a : Entid) : List Aev :=
  (rows.filter fun r => decide (r.a = a)).map fun r => (r.a, r.e, r.v)

/-- cache.rs:1040-1083 `repopulate`, `repopulate_from_aevt` -/
def Caches.repopulate (c : Caches) (s : Schema) (rows : List Row) (a : Entid) : Res Caches :=
  c.accumulate none s (aevsOf rows a) (.add true)

/-- cache.rs:991-1002 `unregister_attribute` -/
def Caches.unregister (c : Caches) (a : Entid) : Caches :=
  { forward := c.forward.filter fun x => decide (x ≠ a)
    reverse := c.reverse.filter fun x => decide (x ≠ a)
    single := AMap.erase c.single a
    multi := AMap.erase c.multi a
    unique := AMap.erase c.unique a
    nonUnique := AMap.erase c.nonUnique a }

/-- cache.rs:1319-1321 `has_cached_attributes` -/
def Caches.hasCached (c : Caches) : Bool := !c.reverse.isEmpty || !c.forward.isEmpty

/-- cache.rs:1293-1301, 1542-1549 `get_values_for_entid` -/
def Caches.getValues (c : Caches) (s : Schema) (a e : Entid) : Option (List TypedValue) :=
  match s.attr a with
  | some at_ => if at_.multival then (AMap.get c.multi a).bind fun m => AMap.get m e else none
  | none => none

/-- cache.rs:1303-1317, 1551-1558 `get_value_for_entid` -/
def Caches.getValue (c : Caches) (s : Schema) (a e : Entid) : Option TypedValue :=
  match s.attr a with
  | some at_ =>
    if at_.multival then none else ((AMap.get c.single a).bind fun m => AMap.get m e).join
  | none => none

/-- cache.rs:1331-1339 `get_entid_for_value` -/
def Caches.getEntid (c : Caches) (a : Entid) (v : TypedValue) : Option Entid :=
  if a ∈ c.reverse then ((AMap.get c.unique a).bind fun m => AMap.get m v).join else none

/-- cache.rs:1341-1353 `get_entids_for_value` -/
def Caches.getEntids (c : Caches) (a : Entid) (v : TypedValue) : Option (List Entid) :=
  if a ∈ c.reverse then (AMap.get c.nonUnique a).bind fun m => AMap.get m v else none

/-! ### Absorbing an overlay -/

/-- cache.rs:107-122 `Absorb for CacheMap<K, Option<V>>` -/
def absorbOpt {K V : Type} [DecidableEq K] (m other : AMap K (Option V)) : AMap K (Option V) :=
  other.foldl (fun m p => match p.2 with
    | none => AMap.erase m p.1
    | some v => AMap.insert m p.1 (some v)) m

/-- cache.rs:322-334, 452-464 `Absorb` for the multi-valued caches -/
def absorbList {K V : Type} [DecidableEq K] (m other : AMap K (List V)) : AMap K (List V) :=
  other.foldl (fun m p => if p.2.isEmpty then AMap.erase m p.1 else AMap.insert m p.1 p.2) m

/-- cache.rs:132-150 `extend_by_absorbing` -/
def extendAbsorbing {M : Type} (absorb : M → M → M) (m other : AMap Entid M) : AMap Entid M :=
  other.foldl (fun m p => match AMap.get m p.1 with
    | some x => AMap.insert m p.1 (absorb x p.2)
    | none => AMap.insert m p.1 p.2) m

/-- cache.rs:1425-1441 `Absorb for AttributeCaches` -/
def Caches.absorb (c other : Caches) : Caches :=
  { forward := c.forward ++ other.forward
    reverse := c.reverse ++ other.reverse
    single := extendAbsorbing absorbOpt c.single other.single
    multi := extendAbsorbing absorbList c.multi other.multi
    unique := extendAbsorbing absorbOpt c.unique other.unique
    nonUnique := extendAbsorbing absorbList c.nonUnique other.nonUnique }

/-! ### The connection's cache (cache.rs:1444-1530 `SQLiteAttributeCache`) -/

/-- transaction/src/lib.rs:71-76 `CacheDirection` -/
inductive CacheDir where
  | forward | reverse | both
  deriving DecidableEq, Repr

/-- Is it `Forward` or `Both`? -/
def CacheDir.isForward : CacheDir → Bool
  | .reverse => false
  | _ => true

/-- Is it `Reverse` or `Both`? -/
def CacheDir.isReverse : CacheDir → Bool
  | .forward => false
  | _ => true

/-- cache.rs:1460-1518 `register_forward`, `register_reverse`, `register` (the last does not check
that the attribute exists). -/
def Caches.register (c : Caches) (s : Schema) (rows : List Row) (a : Entid) (d : CacheDir) :
    Res Caches :=
  if d ≠ .both ∧ (s.attr a).isNone then .err .other else
  let c1 := { c with
    forward := if d.isForward then setInsert c.forward a else c.forward
    reverse := if d.isReverse then setInsert c.reverse a else c.reverse }
  c1.repopulate s rows a

/-! ### The cache of a transaction in progress -/

/-- cache.rs:1615-1620 `InProgressSQLiteAttributeCache` -/
structure ProgCache where
  inner : Caches
  overlay : Caches
  unregForward : List Entid := []
  unregReverse : List Entid := []
  deriving DecidableEq, Repr

/-- cache.rs:1623-1631 `from_cache`, 1453-1458 `make_override` -/
def ProgCache.fromCache (c : Caches) : ProgCache :=
  { inner := c, overlay := { forward := c.forward, reverse := c.reverse } }

/-- cache.rs:1795-1799 `is_attribute_cached_forward` -/
def ProgCache.cachedForward (p : ProgCache) (a : Entid) : Bool :=
  !decide (a ∈ p.unregForward) && (decide (a ∈ p.inner.forward) || decide (a ∈ p.overlay.forward))

/-- cache.rs:1789-1793 `is_attribute_cached_reverse` -/
def ProgCache.cachedReverse (p : ProgCache) (a : Entid) : Bool :=
  !decide (a ∈ p.unregReverse) && (decide (a ∈ p.inner.reverse) || decide (a ∈ p.overlay.reverse))

/-- cache.rs:1801-1826 `has_cached_attributes` -/
def ProgCache.hasCached (p : ProgCache) : Bool :=
  p.overlay.hasCached ||
  (if p.unregForward.isEmpty && p.unregReverse.isEmpty then p.inner.hasCached
   else (p.inner.forward.any fun a => !decide (a ∈ p.unregForward)) ||
        (p.inner.reverse.any fun a => !decide (a ∈ p.unregReverse)))

/-- cache.rs:1633-1717 `register_forward`, `register_reverse`, `register` -/
def ProgCache.register (p : ProgCache) (s : Schema) (rows : List Row) (a : Entid) (d : CacheDir) :
    Res ProgCache :=
  if (s.attr a).isNone then .err .other else
  if (!d.isForward || p.cachedForward a) && (!d.isReverse || p.cachedReverse a) then .ok p else
  let overlay := { p.overlay with
    forward := if d.isForward then setInsert p.overlay.forward a else p.overlay.forward
    reverse := if d.isReverse then setInsert p.overlay.reverse a else p.overlay.reverse }
  (overlay.repopulate s rows a).bind fun o => .ok { p with
    overlay := o
    unregForward := if d.isForward then p.unregForward.filter fun x => decide (x ≠ a)
      else p.unregForward
    unregReverse := if d.isReverse then p.unregReverse.filter fun x => decide (x ≠ a)
      else p.unregReverse }

/-- cache.rs:1719-1727 `unregister` -/
def ProgCache.unregister (p : ProgCache) (a : Entid) : ProgCache :=
  { p with overlay := p.overlay.unregister a
           unregForward := setInsert p.unregForward a
           unregReverse := setInsert p.unregReverse a }

/-- cache.rs:1739-1745 `update` -/
def ProgCache.update (p : ProgCache) (s : Schema) (retractions assertions : List Aev) :
    Res ProgCache :=
  (p.overlay.update (some p.inner) s retractions assertions).bind fun o =>
    .ok { p with overlay := o }

/-- cache.rs:1749-1765 `get_values_for_entid` -/
def ProgCache.getValues (p : ProgCache) (s : Schema) (a e : Entid) : Option (List TypedValue) :=
  if a ∈ p.unregForward then none else
  match p.overlay.getValues s a e with
  | some vs => some vs
  | none => p.inner.getValues s a e

/-- cache.rs:1767-1787 `get_value_for_entid`; 1021-1035 `get_value_for_entid_if_present` answers only
when a value is present, so a deletion recorded in the overlay falls through to `inner`. -/
def ProgCache.getValue (p : ProgCache) (s : Schema) (a e : Entid) : Option TypedValue :=
  if a ∈ p.unregForward then none else
  match p.overlay.getValue s a e with
  | some v => some v
  | none => p.inner.getValue s a e

/-- cache.rs:1828-1840 `get_entids_for_value` -/
def ProgCache.getEntids (p : ProgCache) (a : Entid) (v : TypedValue) : Option (List Entid) :=
  if a ∈ p.unregReverse then none else
  match p.overlay.getEntids a v with
  | some es => some es
  | none => p.inner.getEntids a v

/-- cache.rs:1842-1857 `get_entid_for_value`, 1007-1019 `get_entid_for_value_if_present` -/
def ProgCache.getEntid (p : ProgCache) (a : Entid) (v : TypedValue) : Option Entid :=
  if a ∈ p.unregReverse then none else
  match (if a ∈ p.overlay.reverse then (AMap.get p.overlay.unique a).bind fun m => AMap.get m v
    else none) with
  | some present => present
  | none => p.inner.getEntid a v

/-- cache.rs:1891-1922 `commit_to`.  `shared`: another clone of the destination's `Arc` is alive
(e.g. from `Conn::current_cache`), in which case `Arc::get_mut` fails and `unimplemented!()` is
reached. -/
def ProgCache.commitTo (p : ProgCache) (dest : Caches) (shared : Bool) : Res Caches :=
  if !dest.hasCached then .ok p.overlay else
  if shared then .panic else
  .ok (((p.unregForward ++ p.unregReverse).foldl Caches.unregister dest).absorb p.overlay)

/-! ### The watcher of a transaction -/

/-- What the transactor shows its watchers: the final assertions and retractions
(tx.rs:886-895 `watcher.datom`). -/
structure Shown where
  added : Bool
  e : Entid
  a : Entid
  v : TypedValue
  deriving DecidableEq, Repr

/-- cache.rs:1925-1932 `collected_assertions`, `collected_retractions`; `none` is `Either::Left`. -/
abbrev Collected := AMap Entid (Option (List (Entid × TypedValue)))

/-- cache.rs:1950-1981 `datom`, into the chosen map. -/
def collect (p : ProgCache) (m : Collected) (d : Shown) : Collected :=
  match AMap.get m d.a with
  | none => AMap.insert m d.a (if p.cachedForward d.a || p.cachedReverse d.a then some [(d.e, d.v)]
      else none)
  | some none => m
  | some (some evs) => AMap.insert m d.a (some (evs ++ [(d.e, d.v)]))

/-- cache.rs:1983-2004: drop the placeholders and flatten. -/
def flattenCollected (m : Collected) : List Aev :=
  m.flatMap fun p => match p.2 with
    | none => []
    | some evs => evs.map fun ev => (p.1, ev)

/-- cache.rs:1925-2007 `InProgressCacheTransactWatcher`: all `datom` calls of a transaction, then
`done`. -/
def ProgCache.watch (p : ProgCache) (s : Schema) (shown : List Shown) : Res ProgCache :=
  let shown := if p.hasCached then shown else []
  p.update s
    (flattenCollected ((shown.filter fun d => !d.added).foldl (collect p) []))
    (flattenCollected ((shown.filter fun d => d.added).foldl (collect p) []))

end Mentat
