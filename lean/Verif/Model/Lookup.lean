import Verif.Model.QueryResult
import Verif.Model.Session
/-
Looking up the values of an attribute of an entity: transaction/src/query.rs:154-290, src/conn.rs:209-229.

The result of the query is taken apart by `into_scalar_result` and `into_coll_result`; a `Binding` that is not a scalar
cannot occur (query.rs:236, 260: "we never retrieve structure"), so values stand for bindings.
-/
namespace Mentat
open CC

/-- query.rs:161-182: the query `fetch_values` runs. -/
def fetchQuery (e a : Entid) (onlyOne : Bool) : FindQuery :=
  { find := if onlyOne then .scalar (.var "?v".toList) else .coll (.var "?v".toList)
    clauses := [.pattern { e := .entid e, a := .entid a, v := .var "?v".toList, tx := .placeholder }] }

/-- query.rs:154-187 `fetch_values` -/
def fetchValues (fl : Floats) (k : Known) (db : Tables) (e a : Entid) (onlyOne : Bool) : Res QResult :=
  runQuery fl k db (fetchQuery e a onlyOne) ⟨[], []⟩

/-- query.rs:195-223 `lookup_value` -/
def lookupValue (fl : Floats) (k : Known) (db : Tables) (e a : Entid) : Res (Option TypedValue) :=
  if k.cachedForward a then .ok (k.cache.bind fun c => c.getValue k.schema a e)
  else (fetchValues fl k db e a true).bind QResult.intoScalar

/-- query.rs:225-250 `lookup_values` -/
def lookupValues (fl : Floats) (k : Known) (db : Tables) (e a : Entid) : Res (List TypedValue) :=
  if k.cachedForward a then .ok ((k.cache.bind fun c => c.getValues k.schema a e).getD [])
  else (fetchValues fl k db e a false).bind QResult.intoColl

/-- query.rs:189-193 `lookup_attribute` -/
def lookupAttribute (s : Schema) (a : Keyword) : Res Entid :=
  match AMap.get s.identMap a with
  | some e => .ok e
  | none => .err .other

/-- query.rs:252-266 `lookup_value_for_attribute` -/
def lookupValueFor (fl : Floats) (k : Known) (db : Tables) (e : Entid) (a : Keyword) : Res (Option TypedValue) :=
  (lookupAttribute k.schema a).bind fun a => lookupValue fl k db e a

/-- query.rs:268-279 `lookup_values_for_attribute` -/
def lookupValuesFor (fl : Floats) (k : Known) (db : Tables) (e : Entid) (a : Keyword) : Res (List TypedValue) :=
  (lookupAttribute k.schema a).bind fun a => lookupValues fl k db e a

/-- conn.rs:215-216, 226-227: what a connection knows. -/
def Conn.known (c : Conn) : Known := ⟨c.schema, some (.settled c.cache)⟩

/-- transaction/src/lib.rs:408-480: what a transaction in progress knows; `useCaching` is set by
`use_caching` (145-147) and by `begin_uncached_read` (src/conn.rs:272-281), and only `q_once` looks at it. -/
def InProgress.known (p : InProgress) (useCaching : Bool := true) : Known :=
  ⟨p.schema, if useCaching then some (.ongoing p.cache) else none⟩

end Mentat
