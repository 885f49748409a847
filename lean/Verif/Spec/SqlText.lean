import Verif.Model.SqlText
/-
How SQLite reads the text of a statement: its tokens, and what a select query is as a sequence of
tokens and values, whatever text it is written as.

The reader follows SQLite's tokenizer (tokenize.c) for the characters that occur: words, numbers,
names quoted with backticks, strings quoted with `'`, parameters beginning with `$`, operators and
punctuation.  It stops with `illegal` at anything else: other characters, the beginning of a comment,
a quote without an end, a NUL (where SQLite takes the statement to end), and the forms `$a(b)` and
`$a::b` of parameters.
-/
namespace Mentat
namespace SqlText

inductive Tok where
  | word (t : Text)
  | name (t : Text)
  | str (t : Text)
  | num (n : Nat)
  | float (t : Text)
  | param (t : Text)
  | punct (c : Char)
  | op (t : Text)
  | illegal
  deriving DecidableEq, Repr

inductive State where
  | start
  | word (acc : Text)
  | int (n : Nat) (acc : Text)
  | frac (acc : Text)
  | expo (acc : Text)
  | expoNeg (acc : Text)
  | expoDigits (acc : Text)
  | quoted (acc : Text)
  | quotedEnd (acc : Text)
  | str (acc : Text)
  | strEnd (acc : Text)
  | param (acc : Text)
  | minus
  | lt
  | gt
  | dead
  deriving DecidableEq, Repr

/-- SQLite's `IdChar` -/
def idChar (c : Char) : Bool := c.isAlphanum || c == '_' || c == '$' || decide (128 ≤ c.toNat)

def digitVal (c : Char) : Nat := c.toNat - '0'.toNat

/-- A token may begin with the character. -/
def begins (c : Char) : List Tok × State :=
  if c = ' ' then ([], .start)
  else if c.isDigit then ([], .int (digitVal c) [c])
  else if c = '`' then ([], .quoted [])
  else if c = '\'' then ([], .str [])
  else if c = '$' then ([], .param [])
  else if c = '-' then ([], .minus)
  else if c = '<' then ([], .lt)
  else if c = '>' then ([], .gt)
  else if c = '=' then ([.op ['=']], .start)
  else if c = '(' ∨ c = ')' ∨ c = ',' ∨ c = '.' ∨ c = '*' then ([.punct c], .start)
  else if idChar c then ([], .word [c])
  else ([.illegal], .dead)

/-- The token is complete, and the character begins the next. -/
def ends (t : Tok) (c : Char) : List Tok × State := (t :: (begins c).1, (begins c).2)

def lexStep : State → Char → List Tok × State
  | .start, c => begins c
  | .word acc, c => if idChar c then ([], .word (acc ++ [c])) else ends (.word acc) c
  | .int n acc, c =>
    if c.isDigit then ([], .int (10 * n + digitVal c) (acc ++ [c]))
    else if c = '.' then ([], .frac (acc ++ [c]))
    else if c = 'e' ∨ c = 'E' then ([], .expo (acc ++ [c]))
    else if idChar c then ([.illegal], .dead)
    else ends (.num n) c
  | .frac acc, c =>
    if c.isDigit then ([], .frac (acc ++ [c]))
    else if c = 'e' ∨ c = 'E' then ([], .expo (acc ++ [c]))
    else if idChar c then ([.illegal], .dead)
    else ends (.float acc) c
  | .expo acc, c =>
    if c.isDigit then ([], .expoDigits (acc ++ [c]))
    else if c = '-' ∨ c = '+' then ([], .expoNeg (acc ++ [c]))
    else ([.illegal], .dead)
  | .expoNeg acc, c =>
    if c.isDigit then ([], .expoDigits (acc ++ [c])) else ([.illegal], .dead)
  | .expoDigits acc, c =>
    if c.isDigit then ([], .expoDigits (acc ++ [c]))
    else if idChar c then ([.illegal], .dead)
    else ends (.float acc) c
  | .quoted acc, c =>
    if c = '`' then ([], .quotedEnd acc)
    else if c = '\x00' then ([.illegal], .dead)
    else ([], .quoted (acc ++ [c]))
  | .quotedEnd acc, c => if c = '`' then ([], .quoted (acc ++ ['`'])) else ends (.name acc) c
  | .str acc, c =>
    if c = '\'' then ([], .strEnd acc)
    else if c = '\x00' then ([.illegal], .dead)
    else ([], .str (acc ++ [c]))
  | .strEnd acc, c => if c = '\'' then ([], .str (acc ++ ['\''])) else ends (.str acc) c
  | .param acc, c =>
    if idChar c then ([], .param (acc ++ [c]))
    else if c = '(' ∨ c = ':' then ([.illegal], .dead)
    else ends (.param acc) c
  | .minus, c => if c = '-' then ([.illegal], .dead) else ends (.op ['-']) c
  | .lt, c =>
    if c = '=' then ([.op ['<', '=']], .start)
    else if c = '>' then ([.op ['<', '>']], .start)
    else ends (.op ['<']) c
  | .gt, c => if c = '=' then ([.op ['>', '=']], .start) else ends (.op ['>']) c
  | .dead, _ => ([], .dead)

/-- At the end of the statement. -/
def flush : State → List Tok
  | .start => []
  | .word acc => [.word acc]
  | .int n _ => [.num n]
  | .frac acc => [.float acc]
  | .expo _ => [.illegal]
  | .expoNeg _ => [.illegal]
  | .expoDigits acc => [.float acc]
  | .quoted _ => [.illegal]
  | .quotedEnd acc => [.name acc]
  | .str _ => [.illegal]
  | .strEnd acc => [.str acc]
  | .param acc => [.param acc]
  | .minus => [.op ['-']]
  | .lt => [.op ['<']]
  | .gt => [.op ['>']]
  | .dead => []

def lexFrom : State → Text → List Tok
  | st, [] => flush st
  | st, c :: r => (lexStep st c).1 ++ lexFrom (lexStep st c).2 r

/-- The tokens SQLite reads from the text of a statement. -/
def lex (t : Text) : List Tok := lexFrom .start t

/-! ### What a query is, as a sequence of tokens and values -/

/-- A token, a value given as an argument, or an argument to be given by the caller. -/
inductive Piece where
  | tok (t : Tok)
  | bound (v : SqlValue)
  | hole (n : Text)
  deriving DecidableEq, Repr

/-- A parameter stands for the argument of its name, when there is one. -/
def resolve (args : List (Text × SqlValue)) : Tok → Piece
  | .param n => match AMap.get args ('$' :: n) with
    | some v => .bound v
    | none => .hole n
  | t => .tok t

def W (s : String) : Piece := .tok (.word s.toList)
def P (c : Char) : Piece := .tok (.punct c)
def N (t : Text) : Piece := .tok (.name t)

/-- A number: its sign and its absolute value. -/
def intPieces (n : Int) : List Piece :=
  if n < 0 then [.tok (.op ['-']), .tok (.num n.natAbs)] else [.tok (.num n.natAbs)]

/-- A floating-point number is the text Rust writes it as, after its sign. -/
def floatPieces : Text → List Piece
  | '-' :: t => [.tok (.op ['-']), .tok (.float t)]
  | t => [.tok (.float t)]

/-- Numbers, booleans and instants are literals; texts, keywords and UUIDs are arguments. -/
def valuePieces (R : Rust) : TypedValue → List Piece
  | .ref e => intPieces e
  | .boolean x => [.tok (.num (if x then 1 else 0))]
  | .long n => intPieces n
  | .double d => floatPieces (R.float d)
  | .instant us => intPieces us
  | .uuid u => [.bound (TypedValue.uuid u).toSql.1]
  | .string s => [.bound (.text s)]
  | .keyword k => [.bound (TypedValue.keyword k).toSql.1]

def columnPieces : Column → List Piece
  | .e => [W "e"]
  | .a => [W "a"]
  | .v => [W "v"]
  | .tx => [W "tx"]
  | .tag => [W "value_type_tag"]
  | .added => [W "added"]
  | .rowid => [W "rowid"]
  | .text => [W "text"]
  | .var x => [N x]
  | .varTag x => [N (x ++ "_value_type_tag".toList)]

def qualifiedPieces (al : Text) (c : Column) : List Piece := N al :: P '.' :: columnPieces c

def exprPieces (R : Rust) : Expr → List Piece
  | .column al c => qualifiedPieces al c
  | .existing n => [N n]
  | .entid e => intPieces e
  | .integer i => intPieces i
  | .long i => intPieces i
  | .value v => valuePieces R v
  | .aggregate op arg => .tok (.word (aggName op)) :: P '(' :: exprPieces R arg ++ [P ')']

/-- The pieces of each, after the separator. -/
def restPieces {α : Type} (f : α → List Piece) (sep : List Piece) (l : List α) : List Piece :=
  l.flatMap fun x => sep ++ f x

/-- The pieces of each, separated. -/
def sepPieces {α : Type} (f : α → List Piece) (sep : List Piece) : List α → List Piece
  | [] => []
  | x :: xs => f x ++ restPieces f sep xs

def projectedPieces (R : Rust) (c : Expr × Text) : List Piece := exprPieces R c.1 ++ [W "AS", N c.2]

def projectionPieces (R : Rust) : Projection → List Piece
  | .one => [.tok (.num 1)]
  | .star => [P '*']
  | .columns cs => sepPieces (projectedPieces R) [P ','] cs

def tuplePieces (R : Rust) (vs : List TypedValue) : List Piece :=
  P '(' :: sepPieces (valuePieces R) [P ','] vs ++ [P ')']

def rowsPieces (R : Rust) (size : Nat) (vs : List TypedValue) : List Piece :=
  W "VALUES" :: sepPieces (tuplePieces R) [P ','] (chunked size vs.length vs)

def valuesPieces (R : Rust) : Values → List Piece
  | .unnamed size vs => rowsPieces R size vs
  | .named names vs =>
    W "SELECT" :: sepPieces (fun x => [.tok (.num 0), W "AS", N x]) [P ','] names
      ++ [W "WHERE", .tok (.num 0), W "UNION", W "ALL"] ++ rowsPieces R names.length vs

def groupPieces : Group → List Piece
  | .projected n => [N n]
  | .column al c => qualifiedPieces al c

def orderPieces (o : Order) : List Piece :=
  [N (if o.tag then o.var ++ "_value_type_tag".toList else o.var),
    if o.ascending then W "ASC" else W "DESC"]

def limitPieces : Limit → List Piece
  | .none => []
  | .fixed n => [W "LIMIT", .tok (.num n)]
  | .var x => [W "LIMIT", .hole ('i' :: x.tail.map fun c => if c.isAlphanum then c else '_')]

def opPiece : Op → Piece
  | .eq => .tok (.op ['='])
  | .ne => .tok (.op ['<', '>'])
  | .lt => .tok (.op ['<'])
  | .le => .tok (.op ['<', '='])
  | .gt => .tok (.op ['>'])
  | .ge => .tok (.op ['>', '='])
  | .match => W "MATCH"

mutual
def condPieces (R : Rust) : Cond → List Piece
  | .infix op l r => exprPieces R l ++ opPiece op :: exprPieces R r
  | .isNull e => exprPieces R e ++ [W "IS", W "NULL"]
  | .isNotNull e => exprPieces R e ++ [W "IS", W "NOT", W "NULL"]
  | .and cs =>
    match cs with
    | [] => [.tok (.num 1)]
    | c :: cs => P '(' :: (condPieces R c ++ condsPieces R (W "AND") cs) ++ [P ')']
  | .or cs =>
    match cs with
    | [] => [.tok (.num 0)]
    | c :: cs => P '(' :: (condPieces R c ++ condsPieces R (W "OR") cs) ++ [P ')']
  | .in l list => exprPieces R l ++ W "IN" :: P '(' :: sepPieces (exprPieces R) [P ','] list ++ [P ')']
  | .notExists t => W "NOT" :: W "EXISTS" :: sourcePieces R t
  | .typeCheck e aff =>
    W "typeof" :: P '(' :: exprPieces R e ++ [P ')', .tok (.op ['=']), .tok (.str aff.name)]
/-- each after the separator -/
def condsPieces (R : Rust) (sep : Piece) : List Cond → List Piece
  | [] => []
  | c :: cs => sep :: condPieces R c ++ condsPieces R sep cs
def sourcePieces (R : Rust) : Source → List Piece
  | .table t al => [N t.name, W "AS", N al]
  | .union qs al =>
    P '(' :: (match qs with
      | [] => []
      | q :: qs => queryPieces R q ++ queriesPieces R qs) ++ [P ')', W "AS", N al]
  | .subquery q => P '(' :: queryPieces R q ++ [P ')']
  | .values v al => P '(' :: valuesPieces R v ++ [P ')', W "AS", N al]
def queriesPieces (R : Rust) : List Query → List Piece
  | [] => []
  | q :: qs => W "UNION" :: queryPieces R q ++ queriesPieces R qs
def sourcesPieces (R : Rust) : List Source → List Piece
  | [] => []
  | t :: ts => P ',' :: sourcePieces R t ++ sourcesPieces R ts
def fromPieces (R : Rust) : List Source → List Piece
  | [] => []
  | t :: ts => W "FROM" :: sourcePieces R t ++ sourcesPieces R ts
def wherePieces (R : Rust) : List Cond → List Piece
  | [] => []
  | c :: cs => W "WHERE" :: condPieces R c ++ condsPieces R (W "AND") cs
def queryPieces (R : Rust) : Query → List Piece
  | .mk distinct proj tables wh group order limit =>
    W "SELECT" :: (if distinct then [W "DISTINCT"] else []) ++ projectionPieces R proj
      ++ fromPieces R tables ++ wherePieces R wh
      ++ (if group.isEmpty then [] else W "GROUP" :: W "BY" :: sepPieces groupPieces [P ','] group)
      ++ (if order.isEmpty then [] else W "ORDER" :: W "BY" :: sepPieces orderPieces [P ','] order)
      ++ limitPieces limit
end

/-! ### Conditions -/

def Projection.printable : Projection → Bool
  | .columns cs => !cs.isEmpty
  | _ => true

def Values.printable : Values → Bool
  | .unnamed size _ => size != 0
  | .named names _ => !names.isEmpty

def limitPrintable : Limit → Bool
  | .var x => !x.isEmpty
  | _ => true

mutual
/-- Something is projected everywhere, and rows of values have a width. -/
def Cond.printable : Cond → Bool
  | .or cs => condsPrintable cs
  | .and cs => condsPrintable cs
  | .notExists t => t.printable
  | _ => true
def condsPrintable : List Cond → Bool
  | [] => true
  | c :: cs => c.printable && condsPrintable cs
def Source.printable : Source → Bool
  | .table _ _ => true
  | .union qs _ => queriesPrintable qs
  | .subquery q => q.printable
  | .values v _ => v.printable
def queriesPrintable : List Query → Bool
  | [] => true
  | q :: qs => q.printable && queriesPrintable qs
def sourcesPrintable : List Source → Bool
  | [] => true
  | t :: ts => t.printable && sourcesPrintable ts
def Query.printable : Query → Bool
  | .mk _ proj tables wh _ _ limit =>
    proj.printable && (sourcesPrintable tables && (condsPrintable wh && limitPrintable limit))
end

/-- The shape of Rust's `{:e}` of a finite double. -/
def FloatText (t : Text) : Prop :=
  ∃ (neg : Bool) (ds fs es : Text) (eneg : Bool), ds ≠ [] ∧ es ≠ [] ∧
    (∀ c ∈ ds ++ fs ++ es, c.isDigit = true) ∧
    t = (if neg then ['-'] else []) ++ ds ++ (if fs = [] then [] else '.' :: fs)
      ++ 'e' :: (if eneg then ['-'] else []) ++ es

/-- Rust writes every double in that shape. -/
def Rust.Ok (R : Rust) : Prop := ∀ d, FloatText (R.float d)

/-- No name in the query contains a NUL. -/
def NoNul (ps : List Piece) : Prop := ∀ t, Piece.tok (.name t) ∈ ps → '\x00' ∉ t

end SqlText
end Mentat
