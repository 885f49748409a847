import Verif.Proofs.Run
/- A concrete store, used in the examples and counterexamples beside the theorems. -/
namespace Mentat

/-! ### A small schema and some data -/

/-- Install `:x/id` (65536, string, unique identity), `:x/many` (65537, long, many) and `:x/one`
(65538, string, one). -/
def setupTx : Tx :=
  (install "many" DB_TYPE_LONG DB_CARDINALITY_MANY ++ install "one" DB_TYPE_STRING DB_CARDINALITY_ONE ++
    installIdentity "id" DB_TYPE_STRING, [tid "id", tid "many", tid "one"])

def xId : Entid := 65536
def xMany : Entid := 65537
def xOne : Entid := 65538

/-- A new entity (65539) with two values of `:x/many`, one of `:x/one` and an identity. -/
def dataTx : Tx :=
  ([addT "e" xMany (.long 1), addT "e" xMany (.long 2), addT "e" xOne (str "a"),
    addT "e" xId (str "k")], [tid "e"])

def e1 : Entid := 65539

/-- Replace a value, retract another, re-assert a third, upsert through the identity. -/
def changeTx : Tx :=
  ([addE e1 xOne (str "b"), retE e1 xMany (.long 1), addE e1 xMany (.long 2),
    addT "u" xId (str "k"), addT "u" xMany (.long 3)], [tid "u"])

def hasB (db : Db) (e a : Entid) (v : TypedValue) : Bool :=
  db.store.rows.any fun r => decide (r.e = e ∧ r.a = a ∧ r.v = v)

theorem hasB_iff {db : Db} {e a v} : hasB db e a v = true ↔ Has db.store.rows e a v := by
  simp only [hasB, List.any_eq_true, decide_eq_true_eq, Has]


/-- The fresh store, written out. -/
def bootDb : Db :=
  { schema := ⟨[(1,⟨['d','b'],['i','d','e','n','t']⟩),
   (2,⟨['d','b','.','p','a','r','t'],['d','b']⟩),
   (3,⟨['d','b'],['t','x','I','n','s','t','a','n','t']⟩),
   (4,⟨['d','b','.','i','n','s','t','a','l','l'],['p','a','r','t','i','t','i','o','n']⟩),
   (5,⟨['d','b','.','i','n','s','t','a','l','l'],['v','a','l','u','e','T','y','p','e']⟩),
   (6,⟨['d','b','.','i','n','s','t','a','l','l'],['a','t','t','r','i','b','u','t','e']⟩),
   (7,⟨['d','b'],['v','a','l','u','e','T','y','p','e']⟩),
   (8,⟨['d','b'],['c','a','r','d','i','n','a','l','i','t','y']⟩),
   (9,⟨['d','b'],['u','n','i','q','u','e']⟩),
   (10,⟨['d','b'],['i','s','C','o','m','p','o','n','e','n','t']⟩),
   (11,⟨['d','b'],['i','n','d','e','x']⟩),
   (12,⟨['d','b'],['f','u','l','l','t','e','x','t']⟩),
   (13,⟨['d','b'],['n','o','H','i','s','t','o','r','y']⟩),
   (14,⟨['d','b'],['a','d','d']⟩),
   (15,⟨['d','b'],['r','e','t','r','a','c','t']⟩),
   (16,⟨['d','b','.','p','a','r','t'],['u','s','e','r']⟩),
   (17,⟨['d','b','.','p','a','r','t'],['t','x']⟩),
   (18,⟨['d','b'],['e','x','c','i','s','e']⟩),
   (19,⟨['d','b','.','e','x','c','i','s','e'],['a','t','t','r','s']⟩),
   (20,⟨['d','b','.','e','x','c','i','s','e'],['b','e','f','o','r','e','T']⟩),
   (21,⟨['d','b','.','e','x','c','i','s','e'],['b','e','f','o','r','e']⟩),
   (22,⟨['d','b','.','a','l','t','e','r'],['a','t','t','r','i','b','u','t','e']⟩),
   (23,⟨['d','b','.','t','y','p','e'],['r','e','f']⟩),
   (24,⟨['d','b','.','t','y','p','e'],['k','e','y','w','o','r','d']⟩),
   (25,⟨['d','b','.','t','y','p','e'],['l','o','n','g']⟩),
   (26,⟨['d','b','.','t','y','p','e'],['d','o','u','b','l','e']⟩),
   (27,⟨['d','b','.','t','y','p','e'],['s','t','r','i','n','g']⟩),
   (28,⟨['d','b','.','t','y','p','e'],['u','u','i','d']⟩),
   (29,⟨['d','b','.','t','y','p','e'],['u','r','i']⟩),
   (30,⟨['d','b','.','t','y','p','e'],['b','o','o','l','e','a','n']⟩),
   (31,⟨['d','b','.','t','y','p','e'],['i','n','s','t','a','n','t']⟩),
   (32,⟨['d','b','.','t','y','p','e'],['b','y','t','e','s']⟩),
   (33,⟨['d','b','.','c','a','r','d','i','n','a','l','i','t','y'],['o','n','e']⟩),
   (34,⟨['d','b','.','c','a','r','d','i','n','a','l','i','t','y'],['m','a','n','y']⟩),
   (35,⟨['d','b','.','u','n','i','q','u','e'],['v','a','l','u','e']⟩),
   (36,⟨['d','b','.','u','n','i','q','u','e'],['i','d','e','n','t','i','t','y']⟩),
   (37,⟨['d','b'],['d','o','c']⟩),
   (38,⟨['d','b','.','s','c','h','e','m','a'],['v','e','r','s','i','o','n']⟩),
   (39,⟨['d','b','.','s','c','h','e','m','a'],['a','t','t','r','i','b','u','t','e']⟩),
   (40,⟨['d','b','.','s','c','h','e','m','a'],['c','o','r','e']⟩)],
   [(⟨['d','b'],['i','d','e','n','t']⟩,1),
   (⟨['d','b','.','p','a','r','t'],['d','b']⟩,2),
   (⟨['d','b'],['t','x','I','n','s','t','a','n','t']⟩,3),
   (⟨['d','b','.','i','n','s','t','a','l','l'],['p','a','r','t','i','t','i','o','n']⟩,4),
   (⟨['d','b','.','i','n','s','t','a','l','l'],['v','a','l','u','e','T','y','p','e']⟩,5),
   (⟨['d','b','.','i','n','s','t','a','l','l'],['a','t','t','r','i','b','u','t','e']⟩,6),
   (⟨['d','b'],['v','a','l','u','e','T','y','p','e']⟩,7),
   (⟨['d','b'],['c','a','r','d','i','n','a','l','i','t','y']⟩,8),
   (⟨['d','b'],['u','n','i','q','u','e']⟩,9),
   (⟨['d','b'],['i','s','C','o','m','p','o','n','e','n','t']⟩,10),
   (⟨['d','b'],['i','n','d','e','x']⟩,11),
   (⟨['d','b'],['f','u','l','l','t','e','x','t']⟩,12),
   (⟨['d','b'],['n','o','H','i','s','t','o','r','y']⟩,13),
   (⟨['d','b'],['a','d','d']⟩,14),
   (⟨['d','b'],['r','e','t','r','a','c','t']⟩,15),
   (⟨['d','b','.','p','a','r','t'],['u','s','e','r']⟩,16),
   (⟨['d','b','.','p','a','r','t'],['t','x']⟩,17),
   (⟨['d','b'],['e','x','c','i','s','e']⟩,18),
   (⟨['d','b','.','e','x','c','i','s','e'],['a','t','t','r','s']⟩,19),
   (⟨['d','b','.','e','x','c','i','s','e'],['b','e','f','o','r','e','T']⟩,20),
   (⟨['d','b','.','e','x','c','i','s','e'],['b','e','f','o','r','e']⟩,21),
   (⟨['d','b','.','a','l','t','e','r'],['a','t','t','r','i','b','u','t','e']⟩,22),
   (⟨['d','b','.','t','y','p','e'],['r','e','f']⟩,23),
   (⟨['d','b','.','t','y','p','e'],['k','e','y','w','o','r','d']⟩,24),
   (⟨['d','b','.','t','y','p','e'],['l','o','n','g']⟩,25),
   (⟨['d','b','.','t','y','p','e'],['d','o','u','b','l','e']⟩,26),
   (⟨['d','b','.','t','y','p','e'],['s','t','r','i','n','g']⟩,27),
   (⟨['d','b','.','t','y','p','e'],['u','u','i','d']⟩,28),
   (⟨['d','b','.','t','y','p','e'],['u','r','i']⟩,29),
   (⟨['d','b','.','t','y','p','e'],['b','o','o','l','e','a','n']⟩,30),
   (⟨['d','b','.','t','y','p','e'],['i','n','s','t','a','n','t']⟩,31),
   (⟨['d','b','.','t','y','p','e'],['b','y','t','e','s']⟩,32),
   (⟨['d','b','.','c','a','r','d','i','n','a','l','i','t','y'],['o','n','e']⟩,33),
   (⟨['d','b','.','c','a','r','d','i','n','a','l','i','t','y'],['m','a','n','y']⟩,34),
   (⟨['d','b','.','u','n','i','q','u','e'],['v','a','l','u','e']⟩,35),
   (⟨['d','b','.','u','n','i','q','u','e'],['i','d','e','n','t','i','t','y']⟩,36),
   (⟨['d','b'],['d','o','c']⟩,37),
   (⟨['d','b','.','s','c','h','e','m','a'],['v','e','r','s','i','o','n']⟩,38),
   (⟨['d','b','.','s','c','h','e','m','a'],['a','t','t','r','i','b','u','t','e']⟩,39),
   (⟨['d','b','.','s','c','h','e','m','a'],['c','o','r','e']⟩,40)],
   [(1,⟨.keyword,false,(some .identity),true,false,false,false⟩),
   (4,⟨.ref,true,none,false,false,false,false⟩),
   (5,⟨.ref,true,none,false,false,false,false⟩),
   (6,⟨.ref,true,none,false,false,false,false⟩),
   (3,⟨.instant,false,none,true,false,false,false⟩),
   (7,⟨.ref,false,none,false,false,false,false⟩),
   (8,⟨.ref,false,none,false,false,false,false⟩),
   (37,⟨.string,false,none,false,false,false,false⟩),
   (9,⟨.ref,false,none,false,false,false,false⟩),
   (10,⟨.boolean,false,none,false,false,false,false⟩),
   (11,⟨.boolean,false,none,false,false,false,false⟩),
   (12,⟨.boolean,false,none,false,false,false,false⟩),
   (13,⟨.boolean,false,none,false,false,false,false⟩),
   (22,⟨.ref,true,none,false,false,false,false⟩),
   (38,⟨.long,false,none,false,false,false,false⟩),
   (39,⟨.ref,true,(some .value),true,false,false,false⟩)]⟩
    parts := ⟨⟨0,65535,41⟩,⟨65536,268435455,65536⟩,⟨268435456,9223372036854775807,268435457⟩⟩
    store := ⟨[⟨1,7,.ref 24,268435456,false,false⟩,
   ⟨1,8,.ref 33,268435456,false,false⟩,
   ⟨1,11,.boolean true,268435456,false,false⟩,
   ⟨1,9,.ref 36,268435456,false,false⟩,
   ⟨4,7,.ref 23,268435456,false,false⟩,
   ⟨4,8,.ref 34,268435456,false,false⟩,
   ⟨5,7,.ref 23,268435456,false,false⟩,
   ⟨5,8,.ref 34,268435456,false,false⟩,
   ⟨6,7,.ref 23,268435456,false,false⟩,
   ⟨6,8,.ref 34,268435456,false,false⟩,
   ⟨3,7,.ref 31,268435456,false,false⟩,
   ⟨3,8,.ref 33,268435456,false,false⟩,
   ⟨3,11,.boolean true,268435456,false,false⟩,
   ⟨7,7,.ref 23,268435456,false,false⟩,
   ⟨7,8,.ref 33,268435456,false,false⟩,
   ⟨8,7,.ref 23,268435456,false,false⟩,
   ⟨8,8,.ref 33,268435456,false,false⟩,
   ⟨37,7,.ref 27,268435456,false,false⟩,
   ⟨37,8,.ref 33,268435456,false,false⟩,
   ⟨9,7,.ref 23,268435456,false,false⟩,
   ⟨9,8,.ref 33,268435456,false,false⟩,
   ⟨10,7,.ref 30,268435456,false,false⟩,
   ⟨10,8,.ref 33,268435456,false,false⟩,
   ⟨11,7,.ref 30,268435456,false,false⟩,
   ⟨11,8,.ref 33,268435456,false,false⟩,
   ⟨12,7,.ref 30,268435456,false,false⟩,
   ⟨12,8,.ref 33,268435456,false,false⟩,
   ⟨13,7,.ref 30,268435456,false,false⟩,
   ⟨13,8,.ref 33,268435456,false,false⟩,
   ⟨22,7,.ref 23,268435456,false,false⟩,
   ⟨22,8,.ref 34,268435456,false,false⟩,
   ⟨38,7,.ref 25,268435456,false,false⟩,
   ⟨38,8,.ref 33,268435456,false,false⟩,
   ⟨39,7,.ref 23,268435456,false,false⟩,
   ⟨39,8,.ref 34,268435456,false,false⟩,
   ⟨39,11,.boolean true,268435456,false,false⟩,
   ⟨39,9,.ref 35,268435456,false,false⟩,
   ⟨1,1,.keyword ⟨['d','b'],['i','d','e','n','t']⟩,268435456,true,true⟩,
   ⟨2,1,.keyword ⟨['d','b','.','p','a','r','t'],['d','b']⟩,268435456,true,true⟩,
   ⟨3,1,.keyword ⟨['d','b'],['t','x','I','n','s','t','a','n','t']⟩,268435456,true,true⟩,
   ⟨4,1,.keyword ⟨['d','b','.','i','n','s','t','a','l','l'],['p','a','r','t','i','t','i','o','n']⟩,268435456,true,true⟩,
   ⟨5,1,.keyword ⟨['d','b','.','i','n','s','t','a','l','l'],['v','a','l','u','e','T','y','p','e']⟩,268435456,true,true⟩,
   ⟨6,1,.keyword ⟨['d','b','.','i','n','s','t','a','l','l'],['a','t','t','r','i','b','u','t','e']⟩,268435456,true,true⟩,
   ⟨7,1,.keyword ⟨['d','b'],['v','a','l','u','e','T','y','p','e']⟩,268435456,true,true⟩,
   ⟨8,1,.keyword ⟨['d','b'],['c','a','r','d','i','n','a','l','i','t','y']⟩,268435456,true,true⟩,
   ⟨9,1,.keyword ⟨['d','b'],['u','n','i','q','u','e']⟩,268435456,true,true⟩,
   ⟨10,1,.keyword ⟨['d','b'],['i','s','C','o','m','p','o','n','e','n','t']⟩,268435456,true,true⟩,
   ⟨11,1,.keyword ⟨['d','b'],['i','n','d','e','x']⟩,268435456,true,true⟩,
   ⟨12,1,.keyword ⟨['d','b'],['f','u','l','l','t','e','x','t']⟩,268435456,true,true⟩,
   ⟨13,1,.keyword ⟨['d','b'],['n','o','H','i','s','t','o','r','y']⟩,268435456,true,true⟩,
   ⟨14,1,.keyword ⟨['d','b'],['a','d','d']⟩,268435456,true,true⟩,
   ⟨15,1,.keyword ⟨['d','b'],['r','e','t','r','a','c','t']⟩,268435456,true,true⟩,
   ⟨16,1,.keyword ⟨['d','b','.','p','a','r','t'],['u','s','e','r']⟩,268435456,true,true⟩,
   ⟨17,1,.keyword ⟨['d','b','.','p','a','r','t'],['t','x']⟩,268435456,true,true⟩,
   ⟨18,1,.keyword ⟨['d','b'],['e','x','c','i','s','e']⟩,268435456,true,true⟩,
   ⟨19,1,.keyword ⟨['d','b','.','e','x','c','i','s','e'],['a','t','t','r','s']⟩,268435456,true,true⟩,
   ⟨20,1,.keyword ⟨['d','b','.','e','x','c','i','s','e'],['b','e','f','o','r','e','T']⟩,268435456,true,true⟩,
   ⟨21,1,.keyword ⟨['d','b','.','e','x','c','i','s','e'],['b','e','f','o','r','e']⟩,268435456,true,true⟩,
   ⟨22,1,.keyword ⟨['d','b','.','a','l','t','e','r'],['a','t','t','r','i','b','u','t','e']⟩,268435456,true,true⟩,
   ⟨23,1,.keyword ⟨['d','b','.','t','y','p','e'],['r','e','f']⟩,268435456,true,true⟩,
   ⟨24,1,.keyword ⟨['d','b','.','t','y','p','e'],['k','e','y','w','o','r','d']⟩,268435456,true,true⟩,
   ⟨25,1,.keyword ⟨['d','b','.','t','y','p','e'],['l','o','n','g']⟩,268435456,true,true⟩,
   ⟨26,1,.keyword ⟨['d','b','.','t','y','p','e'],['d','o','u','b','l','e']⟩,268435456,true,true⟩,
   ⟨27,1,.keyword ⟨['d','b','.','t','y','p','e'],['s','t','r','i','n','g']⟩,268435456,true,true⟩,
   ⟨28,1,.keyword ⟨['d','b','.','t','y','p','e'],['u','u','i','d']⟩,268435456,true,true⟩,
   ⟨29,1,.keyword ⟨['d','b','.','t','y','p','e'],['u','r','i']⟩,268435456,true,true⟩,
   ⟨30,1,.keyword ⟨['d','b','.','t','y','p','e'],['b','o','o','l','e','a','n']⟩,268435456,true,true⟩,
   ⟨31,1,.keyword ⟨['d','b','.','t','y','p','e'],['i','n','s','t','a','n','t']⟩,268435456,true,true⟩,
   ⟨32,1,.keyword ⟨['d','b','.','t','y','p','e'],['b','y','t','e','s']⟩,268435456,true,true⟩,
   ⟨33,1,.keyword ⟨['d','b','.','c','a','r','d','i','n','a','l','i','t','y'],['o','n','e']⟩,268435456,true,true⟩,
   ⟨34,1,.keyword ⟨['d','b','.','c','a','r','d','i','n','a','l','i','t','y'],['m','a','n','y']⟩,268435456,true,true⟩,
   ⟨35,1,.keyword ⟨['d','b','.','u','n','i','q','u','e'],['v','a','l','u','e']⟩,268435456,true,true⟩,
   ⟨36,1,.keyword ⟨['d','b','.','u','n','i','q','u','e'],['i','d','e','n','t','i','t','y']⟩,268435456,true,true⟩,
   ⟨37,1,.keyword ⟨['d','b'],['d','o','c']⟩,268435456,true,true⟩,
   ⟨38,1,.keyword ⟨['d','b','.','s','c','h','e','m','a'],['v','e','r','s','i','o','n']⟩,268435456,true,true⟩,
   ⟨39,1,.keyword ⟨['d','b','.','s','c','h','e','m','a'],['a','t','t','r','i','b','u','t','e']⟩,268435456,true,true⟩,
   ⟨40,1,.keyword ⟨['d','b','.','s','c','h','e','m','a'],['c','o','r','e']⟩,268435456,true,true⟩,
   ⟨40,39,.ref 1,268435456,true,true⟩,
   ⟨40,39,.ref 4,268435456,true,true⟩,
   ⟨40,39,.ref 5,268435456,true,true⟩,
   ⟨40,39,.ref 6,268435456,true,true⟩,
   ⟨40,39,.ref 3,268435456,true,true⟩,
   ⟨40,39,.ref 7,268435456,true,true⟩,
   ⟨40,39,.ref 8,268435456,true,true⟩,
   ⟨40,39,.ref 37,268435456,true,true⟩,
   ⟨40,39,.ref 9,268435456,true,true⟩,
   ⟨40,39,.ref 10,268435456,true,true⟩,
   ⟨40,39,.ref 11,268435456,true,true⟩,
   ⟨40,39,.ref 12,268435456,true,true⟩,
   ⟨40,39,.ref 13,268435456,true,true⟩,
   ⟨40,39,.ref 22,268435456,true,true⟩,
   ⟨40,39,.ref 38,268435456,true,true⟩,
   ⟨40,39,.ref 39,268435456,true,true⟩,
   ⟨40,38,.long 1,268435456,false,false⟩,
   ⟨268435456,3,.instant 0,268435456,true,false⟩],
   [⟨1,7,.ref 24,268435456,true,0⟩,
   ⟨1,8,.ref 33,268435456,true,0⟩,
   ⟨1,11,.boolean true,268435456,true,0⟩,
   ⟨1,9,.ref 36,268435456,true,0⟩,
   ⟨4,7,.ref 23,268435456,true,0⟩,
   ⟨4,8,.ref 34,268435456,true,0⟩,
   ⟨5,7,.ref 23,268435456,true,0⟩,
   ⟨5,8,.ref 34,268435456,true,0⟩,
   ⟨6,7,.ref 23,268435456,true,0⟩,
   ⟨6,8,.ref 34,268435456,true,0⟩,
   ⟨3,7,.ref 31,268435456,true,0⟩,
   ⟨3,8,.ref 33,268435456,true,0⟩,
   ⟨3,11,.boolean true,268435456,true,0⟩,
   ⟨7,7,.ref 23,268435456,true,0⟩,
   ⟨7,8,.ref 33,268435456,true,0⟩,
   ⟨8,7,.ref 23,268435456,true,0⟩,
   ⟨8,8,.ref 33,268435456,true,0⟩,
   ⟨37,7,.ref 27,268435456,true,0⟩,
   ⟨37,8,.ref 33,268435456,true,0⟩,
   ⟨9,7,.ref 23,268435456,true,0⟩,
   ⟨9,8,.ref 33,268435456,true,0⟩,
   ⟨10,7,.ref 30,268435456,true,0⟩,
   ⟨10,8,.ref 33,268435456,true,0⟩,
   ⟨11,7,.ref 30,268435456,true,0⟩,
   ⟨11,8,.ref 33,268435456,true,0⟩,
   ⟨12,7,.ref 30,268435456,true,0⟩,
   ⟨12,8,.ref 33,268435456,true,0⟩,
   ⟨13,7,.ref 30,268435456,true,0⟩,
   ⟨13,8,.ref 33,268435456,true,0⟩,
   ⟨22,7,.ref 23,268435456,true,0⟩,
   ⟨22,8,.ref 34,268435456,true,0⟩,
   ⟨38,7,.ref 25,268435456,true,0⟩,
   ⟨38,8,.ref 33,268435456,true,0⟩,
   ⟨39,7,.ref 23,268435456,true,0⟩,
   ⟨39,8,.ref 34,268435456,true,0⟩,
   ⟨39,11,.boolean true,268435456,true,0⟩,
   ⟨39,9,.ref 35,268435456,true,0⟩,
   ⟨1,1,.keyword ⟨['d','b'],['i','d','e','n','t']⟩,268435456,true,0⟩,
   ⟨2,1,.keyword ⟨['d','b','.','p','a','r','t'],['d','b']⟩,268435456,true,0⟩,
   ⟨3,1,.keyword ⟨['d','b'],['t','x','I','n','s','t','a','n','t']⟩,268435456,true,0⟩,
   ⟨4,1,.keyword ⟨['d','b','.','i','n','s','t','a','l','l'],['p','a','r','t','i','t','i','o','n']⟩,268435456,true,0⟩,
   ⟨5,1,.keyword ⟨['d','b','.','i','n','s','t','a','l','l'],['v','a','l','u','e','T','y','p','e']⟩,268435456,true,0⟩,
   ⟨6,1,.keyword ⟨['d','b','.','i','n','s','t','a','l','l'],['a','t','t','r','i','b','u','t','e']⟩,268435456,true,0⟩,
   ⟨7,1,.keyword ⟨['d','b'],['v','a','l','u','e','T','y','p','e']⟩,268435456,true,0⟩,
   ⟨8,1,.keyword ⟨['d','b'],['c','a','r','d','i','n','a','l','i','t','y']⟩,268435456,true,0⟩,
   ⟨9,1,.keyword ⟨['d','b'],['u','n','i','q','u','e']⟩,268435456,true,0⟩,
   ⟨10,1,.keyword ⟨['d','b'],['i','s','C','o','m','p','o','n','e','n','t']⟩,268435456,true,0⟩,
   ⟨11,1,.keyword ⟨['d','b'],['i','n','d','e','x']⟩,268435456,true,0⟩,
   ⟨12,1,.keyword ⟨['d','b'],['f','u','l','l','t','e','x','t']⟩,268435456,true,0⟩,
   ⟨13,1,.keyword ⟨['d','b'],['n','o','H','i','s','t','o','r','y']⟩,268435456,true,0⟩,
   ⟨14,1,.keyword ⟨['d','b'],['a','d','d']⟩,268435456,true,0⟩,
   ⟨15,1,.keyword ⟨['d','b'],['r','e','t','r','a','c','t']⟩,268435456,true,0⟩,
   ⟨16,1,.keyword ⟨['d','b','.','p','a','r','t'],['u','s','e','r']⟩,268435456,true,0⟩,
   ⟨17,1,.keyword ⟨['d','b','.','p','a','r','t'],['t','x']⟩,268435456,true,0⟩,
   ⟨18,1,.keyword ⟨['d','b'],['e','x','c','i','s','e']⟩,268435456,true,0⟩,
   ⟨19,1,.keyword ⟨['d','b','.','e','x','c','i','s','e'],['a','t','t','r','s']⟩,268435456,true,0⟩,
   ⟨20,1,.keyword ⟨['d','b','.','e','x','c','i','s','e'],['b','e','f','o','r','e','T']⟩,268435456,true,0⟩,
   ⟨21,1,.keyword ⟨['d','b','.','e','x','c','i','s','e'],['b','e','f','o','r','e']⟩,268435456,true,0⟩,
   ⟨22,1,.keyword ⟨['d','b','.','a','l','t','e','r'],['a','t','t','r','i','b','u','t','e']⟩,268435456,true,0⟩,
   ⟨23,1,.keyword ⟨['d','b','.','t','y','p','e'],['r','e','f']⟩,268435456,true,0⟩,
   ⟨24,1,.keyword ⟨['d','b','.','t','y','p','e'],['k','e','y','w','o','r','d']⟩,268435456,true,0⟩,
   ⟨25,1,.keyword ⟨['d','b','.','t','y','p','e'],['l','o','n','g']⟩,268435456,true,0⟩,
   ⟨26,1,.keyword ⟨['d','b','.','t','y','p','e'],['d','o','u','b','l','e']⟩,268435456,true,0⟩,
   ⟨27,1,.keyword ⟨['d','b','.','t','y','p','e'],['s','t','r','i','n','g']⟩,268435456,true,0⟩,
   ⟨28,1,.keyword ⟨['d','b','.','t','y','p','e'],['u','u','i','d']⟩,268435456,true,0⟩,
   ⟨29,1,.keyword ⟨['d','b','.','t','y','p','e'],['u','r','i']⟩,268435456,true,0⟩,
   ⟨30,1,.keyword ⟨['d','b','.','t','y','p','e'],['b','o','o','l','e','a','n']⟩,268435456,true,0⟩,
   ⟨31,1,.keyword ⟨['d','b','.','t','y','p','e'],['i','n','s','t','a','n','t']⟩,268435456,true,0⟩,
   ⟨32,1,.keyword ⟨['d','b','.','t','y','p','e'],['b','y','t','e','s']⟩,268435456,true,0⟩,
   ⟨33,1,.keyword ⟨['d','b','.','c','a','r','d','i','n','a','l','i','t','y'],['o','n','e']⟩,268435456,true,0⟩,
   ⟨34,1,.keyword ⟨['d','b','.','c','a','r','d','i','n','a','l','i','t','y'],['m','a','n','y']⟩,268435456,true,0⟩,
   ⟨35,1,.keyword ⟨['d','b','.','u','n','i','q','u','e'],['v','a','l','u','e']⟩,268435456,true,0⟩,
   ⟨36,1,.keyword ⟨['d','b','.','u','n','i','q','u','e'],['i','d','e','n','t','i','t','y']⟩,268435456,true,0⟩,
   ⟨37,1,.keyword ⟨['d','b'],['d','o','c']⟩,268435456,true,0⟩,
   ⟨38,1,.keyword ⟨['d','b','.','s','c','h','e','m','a'],['v','e','r','s','i','o','n']⟩,268435456,true,0⟩,
   ⟨39,1,.keyword ⟨['d','b','.','s','c','h','e','m','a'],['a','t','t','r','i','b','u','t','e']⟩,268435456,true,0⟩,
   ⟨40,1,.keyword ⟨['d','b','.','s','c','h','e','m','a'],['c','o','r','e']⟩,268435456,true,0⟩,
   ⟨40,39,.ref 1,268435456,true,0⟩,
   ⟨40,39,.ref 4,268435456,true,0⟩,
   ⟨40,39,.ref 5,268435456,true,0⟩,
   ⟨40,39,.ref 6,268435456,true,0⟩,
   ⟨40,39,.ref 3,268435456,true,0⟩,
   ⟨40,39,.ref 7,268435456,true,0⟩,
   ⟨40,39,.ref 8,268435456,true,0⟩,
   ⟨40,39,.ref 37,268435456,true,0⟩,
   ⟨40,39,.ref 9,268435456,true,0⟩,
   ⟨40,39,.ref 10,268435456,true,0⟩,
   ⟨40,39,.ref 11,268435456,true,0⟩,
   ⟨40,39,.ref 12,268435456,true,0⟩,
   ⟨40,39,.ref 13,268435456,true,0⟩,
   ⟨40,39,.ref 22,268435456,true,0⟩,
   ⟨40,39,.ref 38,268435456,true,0⟩,
   ⟨40,39,.ref 39,268435456,true,0⟩,
   ⟨40,38,.long 1,268435456,true,0⟩,
   ⟨268435456,3,.instant 0,268435456,true,0⟩]⟩
    views := ⟨[(1,.keyword ⟨['d','b'],['i','d','e','n','t']⟩),
   (2,.keyword ⟨['d','b','.','p','a','r','t'],['d','b']⟩),
   (3,.keyword ⟨['d','b'],['t','x','I','n','s','t','a','n','t']⟩),
   (4,.keyword ⟨['d','b','.','i','n','s','t','a','l','l'],['p','a','r','t','i','t','i','o','n']⟩),
   (5,.keyword ⟨['d','b','.','i','n','s','t','a','l','l'],['v','a','l','u','e','T','y','p','e']⟩),
   (6,.keyword ⟨['d','b','.','i','n','s','t','a','l','l'],['a','t','t','r','i','b','u','t','e']⟩),
   (7,.keyword ⟨['d','b'],['v','a','l','u','e','T','y','p','e']⟩),
   (8,.keyword ⟨['d','b'],['c','a','r','d','i','n','a','l','i','t','y']⟩),
   (9,.keyword ⟨['d','b'],['u','n','i','q','u','e']⟩),
   (10,.keyword ⟨['d','b'],['i','s','C','o','m','p','o','n','e','n','t']⟩),
   (11,.keyword ⟨['d','b'],['i','n','d','e','x']⟩),
   (12,.keyword ⟨['d','b'],['f','u','l','l','t','e','x','t']⟩),
   (13,.keyword ⟨['d','b'],['n','o','H','i','s','t','o','r','y']⟩),
   (14,.keyword ⟨['d','b'],['a','d','d']⟩),
   (15,.keyword ⟨['d','b'],['r','e','t','r','a','c','t']⟩),
   (16,.keyword ⟨['d','b','.','p','a','r','t'],['u','s','e','r']⟩),
   (17,.keyword ⟨['d','b','.','p','a','r','t'],['t','x']⟩),
   (18,.keyword ⟨['d','b'],['e','x','c','i','s','e']⟩),
   (19,.keyword ⟨['d','b','.','e','x','c','i','s','e'],['a','t','t','r','s']⟩),
   (20,.keyword ⟨['d','b','.','e','x','c','i','s','e'],['b','e','f','o','r','e','T']⟩),
   (21,.keyword ⟨['d','b','.','e','x','c','i','s','e'],['b','e','f','o','r','e']⟩),
   (22,.keyword ⟨['d','b','.','a','l','t','e','r'],['a','t','t','r','i','b','u','t','e']⟩),
   (23,.keyword ⟨['d','b','.','t','y','p','e'],['r','e','f']⟩),
   (24,.keyword ⟨['d','b','.','t','y','p','e'],['k','e','y','w','o','r','d']⟩),
   (25,.keyword ⟨['d','b','.','t','y','p','e'],['l','o','n','g']⟩),
   (26,.keyword ⟨['d','b','.','t','y','p','e'],['d','o','u','b','l','e']⟩),
   (27,.keyword ⟨['d','b','.','t','y','p','e'],['s','t','r','i','n','g']⟩),
   (28,.keyword ⟨['d','b','.','t','y','p','e'],['u','u','i','d']⟩),
   (29,.keyword ⟨['d','b','.','t','y','p','e'],['u','r','i']⟩),
   (30,.keyword ⟨['d','b','.','t','y','p','e'],['b','o','o','l','e','a','n']⟩),
   (31,.keyword ⟨['d','b','.','t','y','p','e'],['i','n','s','t','a','n','t']⟩),
   (32,.keyword ⟨['d','b','.','t','y','p','e'],['b','y','t','e','s']⟩),
   (33,.keyword ⟨['d','b','.','c','a','r','d','i','n','a','l','i','t','y'],['o','n','e']⟩),
   (34,.keyword ⟨['d','b','.','c','a','r','d','i','n','a','l','i','t','y'],['m','a','n','y']⟩),
   (35,.keyword ⟨['d','b','.','u','n','i','q','u','e'],['v','a','l','u','e']⟩),
   (36,.keyword ⟨['d','b','.','u','n','i','q','u','e'],['i','d','e','n','t','i','t','y']⟩),
   (37,.keyword ⟨['d','b'],['d','o','c']⟩),
   (38,.keyword ⟨['d','b','.','s','c','h','e','m','a'],['v','e','r','s','i','o','n']⟩),
   (39,.keyword ⟨['d','b','.','s','c','h','e','m','a'],['a','t','t','r','i','b','u','t','e']⟩),
   (40,.keyword ⟨['d','b','.','s','c','h','e','m','a'],['c','o','r','e']⟩)],
   [(1,7,.ref 24),
   (1,8,.ref 33),
   (1,11,.boolean true),
   (1,9,.ref 36),
   (4,7,.ref 23),
   (4,8,.ref 34),
   (5,7,.ref 23),
   (5,8,.ref 34),
   (6,7,.ref 23),
   (6,8,.ref 34),
   (3,7,.ref 31),
   (3,8,.ref 33),
   (3,11,.boolean true),
   (7,7,.ref 23),
   (7,8,.ref 33),
   (8,7,.ref 23),
   (8,8,.ref 33),
   (37,7,.ref 27),
   (37,8,.ref 33),
   (9,7,.ref 23),
   (9,8,.ref 33),
   (10,7,.ref 30),
   (10,8,.ref 33),
   (11,7,.ref 30),
   (11,8,.ref 33),
   (12,7,.ref 30),
   (12,8,.ref 33),
   (13,7,.ref 30),
   (13,8,.ref 33),
   (22,7,.ref 23),
   (22,8,.ref 34),
   (38,7,.ref 25),
   (38,8,.ref 33),
   (39,7,.ref 23),
   (39,8,.ref 34),
   (39,11,.boolean true),
   (39,9,.ref 35)]⟩ }

/-- The store after `setupTx`, written out. -/
def setupDb : Db :=
  { schema := ⟨[(1,⟨['d','b'],['i','d','e','n','t']⟩),
   (2,⟨['d','b','.','p','a','r','t'],['d','b']⟩),
   (3,⟨['d','b'],['t','x','I','n','s','t','a','n','t']⟩),
   (4,⟨['d','b','.','i','n','s','t','a','l','l'],['p','a','r','t','i','t','i','o','n']⟩),
   (5,⟨['d','b','.','i','n','s','t','a','l','l'],['v','a','l','u','e','T','y','p','e']⟩),
   (6,⟨['d','b','.','i','n','s','t','a','l','l'],['a','t','t','r','i','b','u','t','e']⟩),
   (7,⟨['d','b'],['v','a','l','u','e','T','y','p','e']⟩),
   (8,⟨['d','b'],['c','a','r','d','i','n','a','l','i','t','y']⟩),
   (9,⟨['d','b'],['u','n','i','q','u','e']⟩),
   (10,⟨['d','b'],['i','s','C','o','m','p','o','n','e','n','t']⟩),
   (11,⟨['d','b'],['i','n','d','e','x']⟩),
   (12,⟨['d','b'],['f','u','l','l','t','e','x','t']⟩),
   (13,⟨['d','b'],['n','o','H','i','s','t','o','r','y']⟩),
   (14,⟨['d','b'],['a','d','d']⟩),
   (15,⟨['d','b'],['r','e','t','r','a','c','t']⟩),
   (16,⟨['d','b','.','p','a','r','t'],['u','s','e','r']⟩),
   (17,⟨['d','b','.','p','a','r','t'],['t','x']⟩),
   (18,⟨['d','b'],['e','x','c','i','s','e']⟩),
   (19,⟨['d','b','.','e','x','c','i','s','e'],['a','t','t','r','s']⟩),
   (20,⟨['d','b','.','e','x','c','i','s','e'],['b','e','f','o','r','e','T']⟩),
   (21,⟨['d','b','.','e','x','c','i','s','e'],['b','e','f','o','r','e']⟩),
   (22,⟨['d','b','.','a','l','t','e','r'],['a','t','t','r','i','b','u','t','e']⟩),
   (23,⟨['d','b','.','t','y','p','e'],['r','e','f']⟩),
   (24,⟨['d','b','.','t','y','p','e'],['k','e','y','w','o','r','d']⟩),
   (25,⟨['d','b','.','t','y','p','e'],['l','o','n','g']⟩),
   (26,⟨['d','b','.','t','y','p','e'],['d','o','u','b','l','e']⟩),
   (27,⟨['d','b','.','t','y','p','e'],['s','t','r','i','n','g']⟩),
   (28,⟨['d','b','.','t','y','p','e'],['u','u','i','d']⟩),
   (29,⟨['d','b','.','t','y','p','e'],['u','r','i']⟩),
   (30,⟨['d','b','.','t','y','p','e'],['b','o','o','l','e','a','n']⟩),
   (31,⟨['d','b','.','t','y','p','e'],['i','n','s','t','a','n','t']⟩),
   (32,⟨['d','b','.','t','y','p','e'],['b','y','t','e','s']⟩),
   (33,⟨['d','b','.','c','a','r','d','i','n','a','l','i','t','y'],['o','n','e']⟩),
   (34,⟨['d','b','.','c','a','r','d','i','n','a','l','i','t','y'],['m','a','n','y']⟩),
   (35,⟨['d','b','.','u','n','i','q','u','e'],['v','a','l','u','e']⟩),
   (36,⟨['d','b','.','u','n','i','q','u','e'],['i','d','e','n','t','i','t','y']⟩),
   (37,⟨['d','b'],['d','o','c']⟩),
   (38,⟨['d','b','.','s','c','h','e','m','a'],['v','e','r','s','i','o','n']⟩),
   (39,⟨['d','b','.','s','c','h','e','m','a'],['a','t','t','r','i','b','u','t','e']⟩),
   (40,⟨['d','b','.','s','c','h','e','m','a'],['c','o','r','e']⟩),
   (65536,⟨['x'],['i','d']⟩),
   (65537,⟨['x'],['m','a','n','y']⟩),
   (65538,⟨['x'],['o','n','e']⟩)],
   [(⟨['d','b'],['i','d','e','n','t']⟩,1),
   (⟨['d','b','.','p','a','r','t'],['d','b']⟩,2),
   (⟨['d','b'],['t','x','I','n','s','t','a','n','t']⟩,3),
   (⟨['d','b','.','i','n','s','t','a','l','l'],['p','a','r','t','i','t','i','o','n']⟩,4),
   (⟨['d','b','.','i','n','s','t','a','l','l'],['v','a','l','u','e','T','y','p','e']⟩,5),
   (⟨['d','b','.','i','n','s','t','a','l','l'],['a','t','t','r','i','b','u','t','e']⟩,6),
   (⟨['d','b'],['v','a','l','u','e','T','y','p','e']⟩,7),
   (⟨['d','b'],['c','a','r','d','i','n','a','l','i','t','y']⟩,8),
   (⟨['d','b'],['u','n','i','q','u','e']⟩,9),
   (⟨['d','b'],['i','s','C','o','m','p','o','n','e','n','t']⟩,10),
   (⟨['d','b'],['i','n','d','e','x']⟩,11),
   (⟨['d','b'],['f','u','l','l','t','e','x','t']⟩,12),
   (⟨['d','b'],['n','o','H','i','s','t','o','r','y']⟩,13),
   (⟨['d','b'],['a','d','d']⟩,14),
   (⟨['d','b'],['r','e','t','r','a','c','t']⟩,15),
   (⟨['d','b','.','p','a','r','t'],['u','s','e','r']⟩,16),
   (⟨['d','b','.','p','a','r','t'],['t','x']⟩,17),
   (⟨['d','b'],['e','x','c','i','s','e']⟩,18),
   (⟨['d','b','.','e','x','c','i','s','e'],['a','t','t','r','s']⟩,19),
   (⟨['d','b','.','e','x','c','i','s','e'],['b','e','f','o','r','e','T']⟩,20),
   (⟨['d','b','.','e','x','c','i','s','e'],['b','e','f','o','r','e']⟩,21),
   (⟨['d','b','.','a','l','t','e','r'],['a','t','t','r','i','b','u','t','e']⟩,22),
   (⟨['d','b','.','t','y','p','e'],['r','e','f']⟩,23),
   (⟨['d','b','.','t','y','p','e'],['k','e','y','w','o','r','d']⟩,24),
   (⟨['d','b','.','t','y','p','e'],['l','o','n','g']⟩,25),
   (⟨['d','b','.','t','y','p','e'],['d','o','u','b','l','e']⟩,26),
   (⟨['d','b','.','t','y','p','e'],['s','t','r','i','n','g']⟩,27),
   (⟨['d','b','.','t','y','p','e'],['u','u','i','d']⟩,28),
   (⟨['d','b','.','t','y','p','e'],['u','r','i']⟩,29),
   (⟨['d','b','.','t','y','p','e'],['b','o','o','l','e','a','n']⟩,30),
   (⟨['d','b','.','t','y','p','e'],['i','n','s','t','a','n','t']⟩,31),
   (⟨['d','b','.','t','y','p','e'],['b','y','t','e','s']⟩,32),
   (⟨['d','b','.','c','a','r','d','i','n','a','l','i','t','y'],['o','n','e']⟩,33),
   (⟨['d','b','.','c','a','r','d','i','n','a','l','i','t','y'],['m','a','n','y']⟩,34),
   (⟨['d','b','.','u','n','i','q','u','e'],['v','a','l','u','e']⟩,35),
   (⟨['d','b','.','u','n','i','q','u','e'],['i','d','e','n','t','i','t','y']⟩,36),
   (⟨['d','b'],['d','o','c']⟩,37),
   (⟨['d','b','.','s','c','h','e','m','a'],['v','e','r','s','i','o','n']⟩,38),
   (⟨['d','b','.','s','c','h','e','m','a'],['a','t','t','r','i','b','u','t','e']⟩,39),
   (⟨['d','b','.','s','c','h','e','m','a'],['c','o','r','e']⟩,40),
   (⟨['x'],['i','d']⟩,65536),
   (⟨['x'],['m','a','n','y']⟩,65537),
   (⟨['x'],['o','n','e']⟩,65538)],
   [(1,⟨.keyword,false,(some .identity),true,false,false,false⟩),
   (4,⟨.ref,true,none,false,false,false,false⟩),
   (5,⟨.ref,true,none,false,false,false,false⟩),
   (6,⟨.ref,true,none,false,false,false,false⟩),
   (3,⟨.instant,false,none,true,false,false,false⟩),
   (7,⟨.ref,false,none,false,false,false,false⟩),
   (8,⟨.ref,false,none,false,false,false,false⟩),
   (37,⟨.string,false,none,false,false,false,false⟩),
   (9,⟨.ref,false,none,false,false,false,false⟩),
   (10,⟨.boolean,false,none,false,false,false,false⟩),
   (11,⟨.boolean,false,none,false,false,false,false⟩),
   (12,⟨.boolean,false,none,false,false,false,false⟩),
   (13,⟨.boolean,false,none,false,false,false,false⟩),
   (22,⟨.ref,true,none,false,false,false,false⟩),
   (38,⟨.long,false,none,false,false,false,false⟩),
   (39,⟨.ref,true,(some .value),true,false,false,false⟩),
   (65536,⟨.string,false,(some .identity),true,false,false,false⟩),
   (65537,⟨.long,true,none,false,false,false,false⟩),
   (65538,⟨.string,false,none,false,false,false,false⟩)]⟩
    parts := ⟨⟨0,65535,41⟩,⟨65536,268435455,65539⟩,⟨268435456,9223372036854775807,268435458⟩⟩
    store := ⟨[⟨1,7,.ref 24,268435456,false,false⟩,
   ⟨1,8,.ref 33,268435456,false,false⟩,
   ⟨1,11,.boolean true,268435456,false,false⟩,
   ⟨1,9,.ref 36,268435456,false,false⟩,
   ⟨4,7,.ref 23,268435456,false,false⟩,
   ⟨4,8,.ref 34,268435456,false,false⟩,
   ⟨5,7,.ref 23,268435456,false,false⟩,
   ⟨5,8,.ref 34,268435456,false,false⟩,
   ⟨6,7,.ref 23,268435456,false,false⟩,
   ⟨6,8,.ref 34,268435456,false,false⟩,
   ⟨3,7,.ref 31,268435456,false,false⟩,
   ⟨3,8,.ref 33,268435456,false,false⟩,
   ⟨3,11,.boolean true,268435456,false,false⟩,
   ⟨7,7,.ref 23,268435456,false,false⟩,
   ⟨7,8,.ref 33,268435456,false,false⟩,
   ⟨8,7,.ref 23,268435456,false,false⟩,
   ⟨8,8,.ref 33,268435456,false,false⟩,
   ⟨37,7,.ref 27,268435456,false,false⟩,
   ⟨37,8,.ref 33,268435456,false,false⟩,
   ⟨9,7,.ref 23,268435456,false,false⟩,
   ⟨9,8,.ref 33,268435456,false,false⟩,
   ⟨10,7,.ref 30,268435456,false,false⟩,
   ⟨10,8,.ref 33,268435456,false,false⟩,
   ⟨11,7,.ref 30,268435456,false,false⟩,
   ⟨11,8,.ref 33,268435456,false,false⟩,
   ⟨12,7,.ref 30,268435456,false,false⟩,
   ⟨12,8,.ref 33,268435456,false,false⟩,
   ⟨13,7,.ref 30,268435456,false,false⟩,
   ⟨13,8,.ref 33,268435456,false,false⟩,
   ⟨22,7,.ref 23,268435456,false,false⟩,
   ⟨22,8,.ref 34,268435456,false,false⟩,
   ⟨38,7,.ref 25,268435456,false,false⟩,
   ⟨38,8,.ref 33,268435456,false,false⟩,
   ⟨39,7,.ref 23,268435456,false,false⟩,
   ⟨39,8,.ref 34,268435456,false,false⟩,
   ⟨39,11,.boolean true,268435456,false,false⟩,
   ⟨39,9,.ref 35,268435456,false,false⟩,
   ⟨1,1,.keyword ⟨['d','b'],['i','d','e','n','t']⟩,268435456,true,true⟩,
   ⟨2,1,.keyword ⟨['d','b','.','p','a','r','t'],['d','b']⟩,268435456,true,true⟩,
   ⟨3,1,.keyword ⟨['d','b'],['t','x','I','n','s','t','a','n','t']⟩,268435456,true,true⟩,
   ⟨4,1,.keyword ⟨['d','b','.','i','n','s','t','a','l','l'],['p','a','r','t','i','t','i','o','n']⟩,268435456,true,true⟩,
   ⟨5,1,.keyword ⟨['d','b','.','i','n','s','t','a','l','l'],['v','a','l','u','e','T','y','p','e']⟩,268435456,true,true⟩,
   ⟨6,1,.keyword ⟨['d','b','.','i','n','s','t','a','l','l'],['a','t','t','r','i','b','u','t','e']⟩,268435456,true,true⟩,
   ⟨7,1,.keyword ⟨['d','b'],['v','a','l','u','e','T','y','p','e']⟩,268435456,true,true⟩,
   ⟨8,1,.keyword ⟨['d','b'],['c','a','r','d','i','n','a','l','i','t','y']⟩,268435456,true,true⟩,
   ⟨9,1,.keyword ⟨['d','b'],['u','n','i','q','u','e']⟩,268435456,true,true⟩,
   ⟨10,1,.keyword ⟨['d','b'],['i','s','C','o','m','p','o','n','e','n','t']⟩,268435456,true,true⟩,
   ⟨11,1,.keyword ⟨['d','b'],['i','n','d','e','x']⟩,268435456,true,true⟩,
   ⟨12,1,.keyword ⟨['d','b'],['f','u','l','l','t','e','x','t']⟩,268435456,true,true⟩,
   ⟨13,1,.keyword ⟨['d','b'],['n','o','H','i','s','t','o','r','y']⟩,268435456,true,true⟩,
   ⟨14,1,.keyword ⟨['d','b'],['a','d','d']⟩,268435456,true,true⟩,
   ⟨15,1,.keyword ⟨['d','b'],['r','e','t','r','a','c','t']⟩,268435456,true,true⟩,
   ⟨16,1,.keyword ⟨['d','b','.','p','a','r','t'],['u','s','e','r']⟩,268435456,true,true⟩,
   ⟨17,1,.keyword ⟨['d','b','.','p','a','r','t'],['t','x']⟩,268435456,true,true⟩,
   ⟨18,1,.keyword ⟨['d','b'],['e','x','c','i','s','e']⟩,268435456,true,true⟩,
   ⟨19,1,.keyword ⟨['d','b','.','e','x','c','i','s','e'],['a','t','t','r','s']⟩,268435456,true,true⟩,
   ⟨20,1,.keyword ⟨['d','b','.','e','x','c','i','s','e'],['b','e','f','o','r','e','T']⟩,268435456,true,true⟩,
   ⟨21,1,.keyword ⟨['d','b','.','e','x','c','i','s','e'],['b','e','f','o','r','e']⟩,268435456,true,true⟩,
   ⟨22,1,.keyword ⟨['d','b','.','a','l','t','e','r'],['a','t','t','r','i','b','u','t','e']⟩,268435456,true,true⟩,
   ⟨23,1,.keyword ⟨['d','b','.','t','y','p','e'],['r','e','f']⟩,268435456,true,true⟩,
   ⟨24,1,.keyword ⟨['d','b','.','t','y','p','e'],['k','e','y','w','o','r','d']⟩,268435456,true,true⟩,
   ⟨25,1,.keyword ⟨['d','b','.','t','y','p','e'],['l','o','n','g']⟩,268435456,true,true⟩,
   ⟨26,1,.keyword ⟨['d','b','.','t','y','p','e'],['d','o','u','b','l','e']⟩,268435456,true,true⟩,
   ⟨27,1,.keyword ⟨['d','b','.','t','y','p','e'],['s','t','r','i','n','g']⟩,268435456,true,true⟩,
   ⟨28,1,.keyword ⟨['d','b','.','t','y','p','e'],['u','u','i','d']⟩,268435456,true,true⟩,
   ⟨29,1,.keyword ⟨['d','b','.','t','y','p','e'],['u','r','i']⟩,268435456,true,true⟩,
   ⟨30,1,.keyword ⟨['d','b','.','t','y','p','e'],['b','o','o','l','e','a','n']⟩,268435456,true,true⟩,
   ⟨31,1,.keyword ⟨['d','b','.','t','y','p','e'],['i','n','s','t','a','n','t']⟩,268435456,true,true⟩,
   ⟨32,1,.keyword ⟨['d','b','.','t','y','p','e'],['b','y','t','e','s']⟩,268435456,true,true⟩,
   ⟨33,1,.keyword ⟨['d','b','.','c','a','r','d','i','n','a','l','i','t','y'],['o','n','e']⟩,268435456,true,true⟩,
   ⟨34,1,.keyword ⟨['d','b','.','c','a','r','d','i','n','a','l','i','t','y'],['m','a','n','y']⟩,268435456,true,true⟩,
   ⟨35,1,.keyword ⟨['d','b','.','u','n','i','q','u','e'],['v','a','l','u','e']⟩,268435456,true,true⟩,
   ⟨36,1,.keyword ⟨['d','b','.','u','n','i','q','u','e'],['i','d','e','n','t','i','t','y']⟩,268435456,true,true⟩,
   ⟨37,1,.keyword ⟨['d','b'],['d','o','c']⟩,268435456,true,true⟩,
   ⟨38,1,.keyword ⟨['d','b','.','s','c','h','e','m','a'],['v','e','r','s','i','o','n']⟩,268435456,true,true⟩,
   ⟨39,1,.keyword ⟨['d','b','.','s','c','h','e','m','a'],['a','t','t','r','i','b','u','t','e']⟩,268435456,true,true⟩,
   ⟨40,1,.keyword ⟨['d','b','.','s','c','h','e','m','a'],['c','o','r','e']⟩,268435456,true,true⟩,
   ⟨40,39,.ref 1,268435456,true,true⟩,
   ⟨40,39,.ref 4,268435456,true,true⟩,
   ⟨40,39,.ref 5,268435456,true,true⟩,
   ⟨40,39,.ref 6,268435456,true,true⟩,
   ⟨40,39,.ref 3,268435456,true,true⟩,
   ⟨40,39,.ref 7,268435456,true,true⟩,
   ⟨40,39,.ref 8,268435456,true,true⟩,
   ⟨40,39,.ref 37,268435456,true,true⟩,
   ⟨40,39,.ref 9,268435456,true,true⟩,
   ⟨40,39,.ref 10,268435456,true,true⟩,
   ⟨40,39,.ref 11,268435456,true,true⟩,
   ⟨40,39,.ref 12,268435456,true,true⟩,
   ⟨40,39,.ref 13,268435456,true,true⟩,
   ⟨40,39,.ref 22,268435456,true,true⟩,
   ⟨40,39,.ref 38,268435456,true,true⟩,
   ⟨40,39,.ref 39,268435456,true,true⟩,
   ⟨40,38,.long 1,268435456,false,false⟩,
   ⟨268435456,3,.instant 0,268435456,true,false⟩,
   ⟨65537,1,.keyword ⟨['x'],['m','a','n','y']⟩,268435457,true,true⟩,
   ⟨65538,1,.keyword ⟨['x'],['o','n','e']⟩,268435457,true,true⟩,
   ⟨65536,1,.keyword ⟨['x'],['i','d']⟩,268435457,true,true⟩,
   ⟨65537,7,.ref 25,268435457,false,false⟩,
   ⟨65537,8,.ref 34,268435457,false,false⟩,
   ⟨65538,7,.ref 27,268435457,false,false⟩,
   ⟨65538,8,.ref 33,268435457,false,false⟩,
   ⟨65536,7,.ref 27,268435457,false,false⟩,
   ⟨65536,8,.ref 33,268435457,false,false⟩,
   ⟨65536,9,.ref 36,268435457,false,false⟩,
   ⟨65536,11,.boolean true,268435457,false,false⟩,
   ⟨268435457,3,.instant 0,268435457,true,false⟩],
   [⟨1,7,.ref 24,268435456,true,0⟩,
   ⟨1,8,.ref 33,268435456,true,0⟩,
   ⟨1,11,.boolean true,268435456,true,0⟩,
   ⟨1,9,.ref 36,268435456,true,0⟩,
   ⟨4,7,.ref 23,268435456,true,0⟩,
   ⟨4,8,.ref 34,268435456,true,0⟩,
   ⟨5,7,.ref 23,268435456,true,0⟩,
   ⟨5,8,.ref 34,268435456,true,0⟩,
   ⟨6,7,.ref 23,268435456,true,0⟩,
   ⟨6,8,.ref 34,268435456,true,0⟩,
   ⟨3,7,.ref 31,268435456,true,0⟩,
   ⟨3,8,.ref 33,268435456,true,0⟩,
   ⟨3,11,.boolean true,268435456,true,0⟩,
   ⟨7,7,.ref 23,268435456,true,0⟩,
   ⟨7,8,.ref 33,268435456,true,0⟩,
   ⟨8,7,.ref 23,268435456,true,0⟩,
   ⟨8,8,.ref 33,268435456,true,0⟩,
   ⟨37,7,.ref 27,268435456,true,0⟩,
   ⟨37,8,.ref 33,268435456,true,0⟩,
   ⟨9,7,.ref 23,268435456,true,0⟩,
   ⟨9,8,.ref 33,268435456,true,0⟩,
   ⟨10,7,.ref 30,268435456,true,0⟩,
   ⟨10,8,.ref 33,268435456,true,0⟩,
   ⟨11,7,.ref 30,268435456,true,0⟩,
   ⟨11,8,.ref 33,268435456,true,0⟩,
   ⟨12,7,.ref 30,268435456,true,0⟩,
   ⟨12,8,.ref 33,268435456,true,0⟩,
   ⟨13,7,.ref 30,268435456,true,0⟩,
   ⟨13,8,.ref 33,268435456,true,0⟩,
   ⟨22,7,.ref 23,268435456,true,0⟩,
   ⟨22,8,.ref 34,268435456,true,0⟩,
   ⟨38,7,.ref 25,268435456,true,0⟩,
   ⟨38,8,.ref 33,268435456,true,0⟩,
   ⟨39,7,.ref 23,268435456,true,0⟩,
   ⟨39,8,.ref 34,268435456,true,0⟩,
   ⟨39,11,.boolean true,268435456,true,0⟩,
   ⟨39,9,.ref 35,268435456,true,0⟩,
   ⟨1,1,.keyword ⟨['d','b'],['i','d','e','n','t']⟩,268435456,true,0⟩,
   ⟨2,1,.keyword ⟨['d','b','.','p','a','r','t'],['d','b']⟩,268435456,true,0⟩,
   ⟨3,1,.keyword ⟨['d','b'],['t','x','I','n','s','t','a','n','t']⟩,268435456,true,0⟩,
   ⟨4,1,.keyword ⟨['d','b','.','i','n','s','t','a','l','l'],['p','a','r','t','i','t','i','o','n']⟩,268435456,true,0⟩,
   ⟨5,1,.keyword ⟨['d','b','.','i','n','s','t','a','l','l'],['v','a','l','u','e','T','y','p','e']⟩,268435456,true,0⟩,
   ⟨6,1,.keyword ⟨['d','b','.','i','n','s','t','a','l','l'],['a','t','t','r','i','b','u','t','e']⟩,268435456,true,0⟩,
   ⟨7,1,.keyword ⟨['d','b'],['v','a','l','u','e','T','y','p','e']⟩,268435456,true,0⟩,
   ⟨8,1,.keyword ⟨['d','b'],['c','a','r','d','i','n','a','l','i','t','y']⟩,268435456,true,0⟩,
   ⟨9,1,.keyword ⟨['d','b'],['u','n','i','q','u','e']⟩,268435456,true,0⟩,
   ⟨10,1,.keyword ⟨['d','b'],['i','s','C','o','m','p','o','n','e','n','t']⟩,268435456,true,0⟩,
   ⟨11,1,.keyword ⟨['d','b'],['i','n','d','e','x']⟩,268435456,true,0⟩,
   ⟨12,1,.keyword ⟨['d','b'],['f','u','l','l','t','e','x','t']⟩,268435456,true,0⟩,
   ⟨13,1,.keyword ⟨['d','b'],['n','o','H','i','s','t','o','r','y']⟩,268435456,true,0⟩,
   ⟨14,1,.keyword ⟨['d','b'],['a','d','d']⟩,268435456,true,0⟩,
   ⟨15,1,.keyword ⟨['d','b'],['r','e','t','r','a','c','t']⟩,268435456,true,0⟩,
   ⟨16,1,.keyword ⟨['d','b','.','p','a','r','t'],['u','s','e','r']⟩,268435456,true,0⟩,
   ⟨17,1,.keyword ⟨['d','b','.','p','a','r','t'],['t','x']⟩,268435456,true,0⟩,
   ⟨18,1,.keyword ⟨['d','b'],['e','x','c','i','s','e']⟩,268435456,true,0⟩,
   ⟨19,1,.keyword ⟨['d','b','.','e','x','c','i','s','e'],['a','t','t','r','s']⟩,268435456,true,0⟩,
   ⟨20,1,.keyword ⟨['d','b','.','e','x','c','i','s','e'],['b','e','f','o','r','e','T']⟩,268435456,true,0⟩,
   ⟨21,1,.keyword ⟨['d','b','.','e','x','c','i','s','e'],['b','e','f','o','r','e']⟩,268435456,true,0⟩,
   ⟨22,1,.keyword ⟨['d','b','.','a','l','t','e','r'],['a','t','t','r','i','b','u','t','e']⟩,268435456,true,0⟩,
   ⟨23,1,.keyword ⟨['d','b','.','t','y','p','e'],['r','e','f']⟩,268435456,true,0⟩,
   ⟨24,1,.keyword ⟨['d','b','.','t','y','p','e'],['k','e','y','w','o','r','d']⟩,268435456,true,0⟩,
   ⟨25,1,.keyword ⟨['d','b','.','t','y','p','e'],['l','o','n','g']⟩,268435456,true,0⟩,
   ⟨26,1,.keyword ⟨['d','b','.','t','y','p','e'],['d','o','u','b','l','e']⟩,268435456,true,0⟩,
   ⟨27,1,.keyword ⟨['d','b','.','t','y','p','e'],['s','t','r','i','n','g']⟩,268435456,true,0⟩,
   ⟨28,1,.keyword ⟨['d','b','.','t','y','p','e'],['u','u','i','d']⟩,268435456,true,0⟩,
   ⟨29,1,.keyword ⟨['d','b','.','t','y','p','e'],['u','r','i']⟩,268435456,true,0⟩,
   ⟨30,1,.keyword ⟨['d','b','.','t','y','p','e'],['b','o','o','l','e','a','n']⟩,268435456,true,0⟩,
   ⟨31,1,.keyword ⟨['d','b','.','t','y','p','e'],['i','n','s','t','a','n','t']⟩,268435456,true,0⟩,
   ⟨32,1,.keyword ⟨['d','b','.','t','y','p','e'],['b','y','t','e','s']⟩,268435456,true,0⟩,
   ⟨33,1,.keyword ⟨['d','b','.','c','a','r','d','i','n','a','l','i','t','y'],['o','n','e']⟩,268435456,true,0⟩,
   ⟨34,1,.keyword ⟨['d','b','.','c','a','r','d','i','n','a','l','i','t','y'],['m','a','n','y']⟩,268435456,true,0⟩,
   ⟨35,1,.keyword ⟨['d','b','.','u','n','i','q','u','e'],['v','a','l','u','e']⟩,268435456,true,0⟩,
   ⟨36,1,.keyword ⟨['d','b','.','u','n','i','q','u','e'],['i','d','e','n','t','i','t','y']⟩,268435456,true,0⟩,
   ⟨37,1,.keyword ⟨['d','b'],['d','o','c']⟩,268435456,true,0⟩,
   ⟨38,1,.keyword ⟨['d','b','.','s','c','h','e','m','a'],['v','e','r','s','i','o','n']⟩,268435456,true,0⟩,
   ⟨39,1,.keyword ⟨['d','b','.','s','c','h','e','m','a'],['a','t','t','r','i','b','u','t','e']⟩,268435456,true,0⟩,
   ⟨40,1,.keyword ⟨['d','b','.','s','c','h','e','m','a'],['c','o','r','e']⟩,268435456,true,0⟩,
   ⟨40,39,.ref 1,268435456,true,0⟩,
   ⟨40,39,.ref 4,268435456,true,0⟩,
   ⟨40,39,.ref 5,268435456,true,0⟩,
   ⟨40,39,.ref 6,268435456,true,0⟩,
   ⟨40,39,.ref 3,268435456,true,0⟩,
   ⟨40,39,.ref 7,268435456,true,0⟩,
   ⟨40,39,.ref 8,268435456,true,0⟩,
   ⟨40,39,.ref 37,268435456,true,0⟩,
   ⟨40,39,.ref 9,268435456,true,0⟩,
   ⟨40,39,.ref 10,268435456,true,0⟩,
   ⟨40,39,.ref 11,268435456,true,0⟩,
   ⟨40,39,.ref 12,268435456,true,0⟩,
   ⟨40,39,.ref 13,268435456,true,0⟩,
   ⟨40,39,.ref 22,268435456,true,0⟩,
   ⟨40,39,.ref 38,268435456,true,0⟩,
   ⟨40,39,.ref 39,268435456,true,0⟩,
   ⟨40,38,.long 1,268435456,true,0⟩,
   ⟨268435456,3,.instant 0,268435456,true,0⟩,
   ⟨65537,1,.keyword ⟨['x'],['m','a','n','y']⟩,268435457,true,0⟩,
   ⟨65538,1,.keyword ⟨['x'],['o','n','e']⟩,268435457,true,0⟩,
   ⟨65536,1,.keyword ⟨['x'],['i','d']⟩,268435457,true,0⟩,
   ⟨65537,7,.ref 25,268435457,true,0⟩,
   ⟨65537,8,.ref 34,268435457,true,0⟩,
   ⟨65538,7,.ref 27,268435457,true,0⟩,
   ⟨65538,8,.ref 33,268435457,true,0⟩,
   ⟨65536,7,.ref 27,268435457,true,0⟩,
   ⟨65536,8,.ref 33,268435457,true,0⟩,
   ⟨65536,9,.ref 36,268435457,true,0⟩,
   ⟨65536,11,.boolean true,268435457,true,0⟩,
   ⟨268435457,3,.instant 0,268435457,true,0⟩]⟩
    views := ⟨[(1,.keyword ⟨['d','b'],['i','d','e','n','t']⟩),
   (2,.keyword ⟨['d','b','.','p','a','r','t'],['d','b']⟩),
   (3,.keyword ⟨['d','b'],['t','x','I','n','s','t','a','n','t']⟩),
   (4,.keyword ⟨['d','b','.','i','n','s','t','a','l','l'],['p','a','r','t','i','t','i','o','n']⟩),
   (5,.keyword ⟨['d','b','.','i','n','s','t','a','l','l'],['v','a','l','u','e','T','y','p','e']⟩),
   (6,.keyword ⟨['d','b','.','i','n','s','t','a','l','l'],['a','t','t','r','i','b','u','t','e']⟩),
   (7,.keyword ⟨['d','b'],['v','a','l','u','e','T','y','p','e']⟩),
   (8,.keyword ⟨['d','b'],['c','a','r','d','i','n','a','l','i','t','y']⟩),
   (9,.keyword ⟨['d','b'],['u','n','i','q','u','e']⟩),
   (10,.keyword ⟨['d','b'],['i','s','C','o','m','p','o','n','e','n','t']⟩),
   (11,.keyword ⟨['d','b'],['i','n','d','e','x']⟩),
   (12,.keyword ⟨['d','b'],['f','u','l','l','t','e','x','t']⟩),
   (13,.keyword ⟨['d','b'],['n','o','H','i','s','t','o','r','y']⟩),
   (14,.keyword ⟨['d','b'],['a','d','d']⟩),
   (15,.keyword ⟨['d','b'],['r','e','t','r','a','c','t']⟩),
   (16,.keyword ⟨['d','b','.','p','a','r','t'],['u','s','e','r']⟩),
   (17,.keyword ⟨['d','b','.','p','a','r','t'],['t','x']⟩),
   (18,.keyword ⟨['d','b'],['e','x','c','i','s','e']⟩),
   (19,.keyword ⟨['d','b','.','e','x','c','i','s','e'],['a','t','t','r','s']⟩),
   (20,.keyword ⟨['d','b','.','e','x','c','i','s','e'],['b','e','f','o','r','e','T']⟩),
   (21,.keyword ⟨['d','b','.','e','x','c','i','s','e'],['b','e','f','o','r','e']⟩),
   (22,.keyword ⟨['d','b','.','a','l','t','e','r'],['a','t','t','r','i','b','u','t','e']⟩),
   (23,.keyword ⟨['d','b','.','t','y','p','e'],['r','e','f']⟩),
   (24,.keyword ⟨['d','b','.','t','y','p','e'],['k','e','y','w','o','r','d']⟩),
   (25,.keyword ⟨['d','b','.','t','y','p','e'],['l','o','n','g']⟩),
   (26,.keyword ⟨['d','b','.','t','y','p','e'],['d','o','u','b','l','e']⟩),
   (27,.keyword ⟨['d','b','.','t','y','p','e'],['s','t','r','i','n','g']⟩),
   (28,.keyword ⟨['d','b','.','t','y','p','e'],['u','u','i','d']⟩),
   (29,.keyword ⟨['d','b','.','t','y','p','e'],['u','r','i']⟩),
   (30,.keyword ⟨['d','b','.','t','y','p','e'],['b','o','o','l','e','a','n']⟩),
   (31,.keyword ⟨['d','b','.','t','y','p','e'],['i','n','s','t','a','n','t']⟩),
   (32,.keyword ⟨['d','b','.','t','y','p','e'],['b','y','t','e','s']⟩),
   (33,.keyword ⟨['d','b','.','c','a','r','d','i','n','a','l','i','t','y'],['o','n','e']⟩),
   (34,.keyword ⟨['d','b','.','c','a','r','d','i','n','a','l','i','t','y'],['m','a','n','y']⟩),
   (35,.keyword ⟨['d','b','.','u','n','i','q','u','e'],['v','a','l','u','e']⟩),
   (36,.keyword ⟨['d','b','.','u','n','i','q','u','e'],['i','d','e','n','t','i','t','y']⟩),
   (37,.keyword ⟨['d','b'],['d','o','c']⟩),
   (38,.keyword ⟨['d','b','.','s','c','h','e','m','a'],['v','e','r','s','i','o','n']⟩),
   (39,.keyword ⟨['d','b','.','s','c','h','e','m','a'],['a','t','t','r','i','b','u','t','e']⟩),
   (40,.keyword ⟨['d','b','.','s','c','h','e','m','a'],['c','o','r','e']⟩),
   (65537,.keyword ⟨['x'],['m','a','n','y']⟩),
   (65538,.keyword ⟨['x'],['o','n','e']⟩),
   (65536,.keyword ⟨['x'],['i','d']⟩)],
   [(1,7,.ref 24),
   (1,8,.ref 33),
   (1,11,.boolean true),
   (1,9,.ref 36),
   (4,7,.ref 23),
   (4,8,.ref 34),
   (5,7,.ref 23),
   (5,8,.ref 34),
   (6,7,.ref 23),
   (6,8,.ref 34),
   (3,7,.ref 31),
   (3,8,.ref 33),
   (3,11,.boolean true),
   (7,7,.ref 23),
   (7,8,.ref 33),
   (8,7,.ref 23),
   (8,8,.ref 33),
   (37,7,.ref 27),
   (37,8,.ref 33),
   (9,7,.ref 23),
   (9,8,.ref 33),
   (10,7,.ref 30),
   (10,8,.ref 33),
   (11,7,.ref 30),
   (11,8,.ref 33),
   (12,7,.ref 30),
   (12,8,.ref 33),
   (13,7,.ref 30),
   (13,8,.ref 33),
   (22,7,.ref 23),
   (22,8,.ref 34),
   (38,7,.ref 25),
   (38,8,.ref 33),
   (39,7,.ref 23),
   (39,8,.ref 34),
   (39,11,.boolean true),
   (39,9,.ref 35),
   (65537,7,.ref 25),
   (65537,8,.ref 34),
   (65538,7,.ref 27),
   (65538,8,.ref 33),
   (65536,7,.ref 27),
   (65536,8,.ref 33),
   (65536,9,.ref 36),
   (65536,11,.boolean true)]⟩ }


theorem bootDb_eq : createCurrentVersion 0 = .ok bootDb := by decide +kernel

theorem setupDb_eq : runKeptFrom [setupTx] bootDb = some setupDb := by decide +kernel

theorem reachKept_setup : ReachKept setupDb := runKeptFrom_reach (.boot bootDb_eq) setupDb_eq

/-- A reachable database with a decidable property, by running `txs` on `setupDb`. -/
theorem reach_of_setup {txs : List Tx} {p : Db → Bool} (h : (runFrom txs setupDb).any p = true) :
    ∃ db, Reach db ∧ p db = true := by
  cases hr : runFrom txs setupDb with
  | none => simp [hr] at h
  | some db =>
    rw [hr] at h
    exact ⟨db, runFrom_reach reachKept_setup.reach hr, h⟩

theorem reachKept_of_setup {txs : List Tx} {p : Db → Bool}
    (h : (runKeptFrom txs setupDb).any p = true) : ∃ db, ReachKept db ∧ p db = true := by
  cases hr : runKeptFrom txs setupDb with
  | none => simp [hr] at h
  | some db =>
    rw [hr] at h
    exact ⟨db, runKeptFrom_reach reachKept_setup hr, h⟩

/-- The history of the example, with the expected datoms. -/
theorem history_example : (runKeptFrom [dataTx, changeTx] setupDb).any (fun db =>
    hasB db e1 xOne (str "b") && !hasB db e1 xOne (str "a") && hasB db e1 xMany (.long 3) &&
    !hasB db e1 xMany (.long 1) && decide (db.parts.user.next = 65540) &&
    decide (db.store.log.length = 117)) = true := by decide +kernel

end Mentat
