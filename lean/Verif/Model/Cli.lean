import Verif.Model.EdnParse
/-
The command line: tools/cli/src/mentat_cli/command_parser.rs, input.rs, the arguments of lib.rs and the parts of
repl.rs that take arguments apart.  The parser combinators are those of the `combine` crate (4.3), as documented: a
parser that fails after taking a character keeps `or` from trying the alternative, unless it is under `attempt`.
-/
namespace Mentat
namespace Cli

/-! ### combine -/

/-- The outcome of a parser; `taken` says that characters were consumed. -/
inductive Parse (α : Type) where
  | ok (a : α) (rest : Text) (taken : Bool)
  | fail (taken : Bool)
  deriving DecidableEq, Repr

/-- A parser of the `combine` crate. -/
abbrev Parser (α : Type) := Text → Parse α

namespace Parser

/-- One parser after another (`with`, `skip`, `and`). -/
def seq {α β : Type} (p : Parser α) (f : α → Parser β) : Parser β := fun s =>
  match p s with
  | .fail t => .fail t
  | .ok a r t => match f a r with
    | .fail t' => .fail (t || t')
    | .ok b r' t' => .ok b r' (t || t')

/-- `map` -/
def map {α β : Type} (p : Parser α) (f : α → β) : Parser β := fun s =>
  match p s with
  | .fail t => .fail t
  | .ok a r t => .ok (f a) r t

/-- `or`: the second is tried only if the first failed without taking anything. -/
def or {α : Type} (p q : Parser α) : Parser α := fun s =>
  match p s with
  | .fail false => q s
  | r => r

/-- `attempt`: failing takes nothing. -/
def attempt {α : Type} (p : Parser α) : Parser α := fun s =>
  match p s with
  | .fail _ => .fail false
  | r => r

/-- `look_ahead` -/
def lookAhead {α : Type} (p : Parser α) : Parser α := fun s =>
  match p s with
  | .ok a _ _ => .ok a s false
  | r => r

/-- `string`: fails having taken something if the first character is the right one. -/
def strFrom : Bool → Text → Parser Unit
  | t, [], s => .ok () s t
  | t, _ :: _, [] => .fail t
  | t, c :: p, d :: s => if c = d then strFrom true p s else .fail t

/-- `string` -/
def str (p : String) : Parser Unit := strFrom false p.toList

/-- Rust `char::is_whitespace`: the Unicode property `White_Space`. -/
def isWhite (c : Char) : Bool :=
  let n := c.toNat
  (9 ≤ n && n ≤ 13) || n = 32 || n = 0x85 || n = 0xA0 || n = 0x1680 || (0x2000 ≤ n && n ≤ 0x200A) ||
  n = 0x2028 || n = 0x2029 || n = 0x202F || n = 0x205F || n = 0x3000

/-- `spaces` -/
def spaces : Parser Unit := fun s => .ok () (s.dropWhile isWhite) (s.head?.any isWhite)

/-- `many1(satisfy(p))` -/
def many1 (p : Char → Bool) : Parser Text := fun s =>
  if s.takeWhile p = [] then .fail false else .ok (s.takeWhile p) (s.dropWhile p) true

/-- `eof` -/
def eof : Parser Unit := fun s => if s = [] then .ok () [] false else .fail false

/-- `token` -/
def token (c : Char) : Parser Unit := fun s =>
  match s with
  | [] => .fail false
  | d :: r => if c = d then .ok () r true else .fail false

/-- `choice`: one `or` the next. -/
def choice {α : Type} : List (Parser α) → Parser α
  | [] => fun _ => .fail false
  | p :: ps => p.or (choice ps)

end Parser

/-! ### Commands -/

/-- `CacheDirection` (transaction/src/lib.rs:71-76), as read by command_parser.rs:146-148. -/
inductive Direction where
  | forward | reverse | both
  deriving DecidableEq, Repr

/-- command_parser.rs:44-60 `Command` -/
inductive Command where
  | cache (attr : Text) (d : Direction)
  | close
  | exit
  | help (args : List Text)
  | importFile (path : Text)
  | openDb (path : Text)
  | openEncrypted (path key : Text)
  | query (args : Text)
  | queryExplain (args : Text)
  | queryPrepared (args : Text)
  | schema
  | sync (args : List Text)
  | timer (on : Bool)
  | transact (args : Text)
  deriving DecidableEq, Repr

/-- The messages of `CliError::CommandParse`. -/
inductive Refusal where
  | invalid
  | missing
  | unrecognized (arg : Text)
  deriving DecidableEq, Repr

/-- What reading a line gives. -/
abbrev Outcome := Except Refusal Command

open Parser

/-- The arguments from the first on, in words. -/
def wordsOf : Nat → Text → List Text
  | 0, _ => []
  | n + 1, s =>
    let s := s.dropWhile isWhite
    if s = [] then [] else s.takeWhile (fun c => !isWhite c) :: wordsOf n (s.dropWhile fun c => !isWhite c)

/-- command_parser.rs:135-141 `arguments`: words separated, and perhaps ended, by whitespace
(`sep_end_by`).  There must be none before the first word; otherwise there are no words and nothing is
taken.  (The words go to the end of the text, so nothing is left.) -/
def arguments : Parser (List Text) := fun s =>
  if s.head?.all isWhite then .ok [] s false else .ok (wordsOf s.length s) [] true

/-- command_parser.rs:133-134 `path`, `argument` -/
def argument : Parser Text := many1 fun c => !isWhite c

/-- command_parser.rs:144-149 `direction_parser` -/
def directionParser : Parser Direction :=
  ((str "forward").map fun _ => Direction.forward).or
    (((str "reverse").map fun _ => Direction.reverse).or ((str "both").map fun _ => Direction.both))

/-- command_parser.rs:151-159 `edn_arg_parser`: all that follows, if it begins with a bracket or a brace. -/
def ednArgParser : Parser Text :=
  spaces.seq fun _ => (lookAhead ((str "[").or (str "{"))).seq fun _ => many1 fun _ => true

/-- command_parser.rs:161 `no_arg_parser` -/
def noArgParser : Parser (List Text) := arguments.seq fun args => spaces.seq fun _ => eof.map fun _ => args

/-- command_parser.rs:163-181 `opener` -/
def opener (command : String) (n : Nat) : Parser (Except Refusal (List Text)) :=
  (str command).seq fun _ => spaces.seq fun _ => arguments.map fun args =>
    if args.length < n then .error .missing
    else if args.length > n then .error (.unrecognized (args[n]?.getD []))
    else .ok args

/-- command_parser.rs:184-189 -/
def cacheParser : Parser Outcome :=
  (str "cache").seq fun _ => spaces.seq fun _ => argument.seq fun arg => spaces.seq fun _ =>
    directionParser.map fun d => .ok (.cache arg d)

/-- The result of a command that takes no arguments (lines 191-199, 204-212, 246-254). -/
def bare (c : Command) (args : List Text) : Outcome :=
  match args with
  | [] => .ok c
  | a :: _ => .error (.unrecognized a)

/-- command_parser.rs:191-199 -/
def closeParser : Parser Outcome := (str "close").seq fun _ => noArgParser.map (bare .close)

/-- command_parser.rs:201-212 -/
def exitParser : Parser Outcome :=
  ((attempt (str "exit")).or (attempt (str "e"))).seq fun _ => noArgParser.map (bare .exit)

/-- command_parser.rs:214-217 -/
def explainQueryParser : Parser Outcome :=
  ((attempt (str "explain_query")).or (attempt (str "eq"))).seq fun _ => ednArgParser.map fun x => .ok (.queryExplain x)

/-- command_parser.rs:219-222 -/
def helpParser : Parser Outcome :=
  (str "help").seq fun _ => spaces.seq fun _ => arguments.map fun args => .ok (.help args)

/-- command_parser.rs:224-228 -/
def importParser : Parser Outcome :=
  ((attempt (str "import")).or (attempt (str "i"))).seq fun _ => spaces.seq fun _ => argument.map fun x => .ok (.importFile x)

/-- command_parser.rs:230-231 -/
def openParser : Parser Outcome := (opener "open" 1).map fun r => r.bind fun args => .ok (.openDb (args[0]?.getD []))

/-- command_parser.rs:233-235 -/
def openEncryptedParser : Parser Outcome :=
  (opener "open_encrypted" 2).map fun r => r.bind fun args => .ok (.openEncrypted (args[0]?.getD []) (args[1]?.getD []))

/-- command_parser.rs:237-240 -/
def queryParser : Parser Outcome :=
  ((attempt (str "query")).or (attempt (str "q"))).seq fun _ => ednArgParser.map fun x => .ok (.query x)

/-- command_parser.rs:242-244 -/
def queryPreparedParser : Parser Outcome :=
  (str "query_prepared").seq fun _ => ednArgParser.map fun x => .ok (.queryPrepared x)

/-- command_parser.rs:246-254 -/
def schemaParser : Parser Outcome := (str "schema").seq fun _ => noArgParser.map (bare .schema)

/-- command_parser.rs:256-272 -/
def syncParser : Parser Outcome :=
  (str "sync").seq fun _ => spaces.seq fun _ => arguments.map fun args =>
    if args = [] then .error .missing
    else if args.length > 2 then .error (.unrecognized (args[2]?.getD []))
    else .ok (.sync args)

/-- command_parser.rs:274-277; neither alternative is under `attempt`. -/
def timerParser : Parser Outcome :=
  (str "timer").seq fun _ => spaces.seq fun _ =>
    (((str "on").map fun _ => true).or ((str "off").map fun _ => false)).map fun b => .ok (.timer b)

/-- command_parser.rs:279-282 -/
def transactParser : Parser Outcome :=
  ((attempt (str "transact")).or (attempt (str "t"))).seq fun _ => ednArgParser.map fun x => .ok (.transact x)

/-- command_parser.rs:284-299 -/
def parsers : Parser Outcome :=
  choice [attempt helpParser, attempt importParser, attempt timerParser, attempt cacheParser, attempt openEncryptedParser,
    attempt openParser, attempt closeParser, attempt explainQueryParser, attempt exitParser, attempt queryPreparedParser,
    attempt queryParser, attempt schemaParser, attempt syncParser, attempt transactParser]

/-- command_parser.rs:132-309 `command`: what is left of the text is not looked at. -/
def command (s : Text) : Outcome :=
  match (spaces.seq fun _ => (token '.').seq fun _ => parsers) s with
  | .ok r _ _ => r
  | .fail _ => .error .invalid

/-- command_parser.rs:67-84 `is_complete` -/
def Command.isComplete : Command → Bool
  | .query args | .queryExplain args | .queryPrepared args | .transact args =>
    match EdnParse.parse args with
    | .ok _ _ => true
    | _ => false
  | _ => true

/-- Rust `{:?}` of a vector of strings.  Simplification: only quotes and backslashes are escaped. -/
def debugString (s : Text) : Text :=
  '"' :: (s.flatMap fun c => if c = '"' || c = '\\' then ['\\', c] else [c]) ++ ['"']
/-- `{:?}` of the vector. -/
def debugStrings (l : List Text) : Text :=
  '[' :: ((l.map debugString).intersperse ", ".toList).flatten ++ [']']

/-- command_parser.rs:106-129 `output` -/
def Command.output : Command → Text
  | .cache a d => ".cache ".toList ++ a ++ ' ' :: (match d with
    | .forward => "Forward".toList
    | .reverse => "Reverse".toList
    | .both => "Both".toList)
  | .close => ".close".toList
  | .exit => ".exit".toList
  | .help args => ".help ".toList ++ debugStrings args
  | .importFile p => ".import ".toList ++ p
  | .openDb p => ".open ".toList ++ p
  | .openEncrypted p k => ".open_encrypted ".toList ++ p ++ ' ' :: k
  | .query a => ".query ".toList ++ a
  | .queryExplain a => ".explain_query ".toList ++ a
  | .queryPrepared a => ".query_prepared ".toList ++ a
  | .schema => ".schema".toList
  | .sync args => ".sync ".toList ++ debugStrings args
  | .timer on => ".timer ".toList ++ (if on then "true" else "false").toList
  | .transact a => ".transact ".toList ++ a

/-! ### Reading input -/

/-- input.rs:49-60 `UserAction` -/
inductive UserAction where
  | text (line : Text)
  | interrupt
  | quit
  deriving DecidableEq

/-- input.rs:31-40 `InputResult`, with the error a line may give -/
inductive InputResult where
  | command (c : Command)
  | refused (e : Refusal)
  | empty
  | more
  | eof
  deriving DecidableEq

/-- input.rs:43-47 `InputReader`, without the terminal and its history -/
structure Reader where
  buffer : Text := []
  inProcess : Option Command := none
  deriving DecidableEq

/-- input.rs:92-173 `read_input` once the line has been read -/
def Reader.take (r : Reader) (line : Text) : Reader × InputResult :=
  let buffer := (if r.buffer = [] then [] else r.buffer ++ ['\n']) ++ line
  if buffer = [] then ({ r with buffer := buffer }, .empty)
  else
    let cmd : Outcome := match r.inProcess with
      | some (.queryPrepared args) => .ok (.queryPrepared (args ++ '\n' :: line))
      | some (.query args) => .ok (.query (args ++ '\n' :: line))
      | some (.transact args) => .ok (.transact (args ++ '\n' :: line))
      | _ => command buffer
    match cmd with
    | .ok cmd => if cmd.isComplete then ({}, .command cmd) else (⟨buffer, some cmd⟩, .more)
    | .error e => ({}, .refused e)

/-- input.rs:92-172 `read_input` -/
def Reader.readInput (r : Reader) : UserAction → Reader × InputResult
  | .text line => r.take line
  | .interrupt => if r.inProcess.isSome then Reader.take {} [] else (r, .eof)
  | .quit => (r, .eof)

/-- repl.rs:197-233 `run` after the startup commands: what there is to handle, in order, until the end of
the input or a command to exit. -/
def Reader.run (r : Reader) : List UserAction → List Outcome
  | [] => []
  | a :: rest =>
    match r.readInput a with
    | (r', .command c) => .ok c :: (if c = .exit then [] else r'.run rest)
    | (r', .refused e) => .error e :: r'.run rest
    | (r', .empty) => r'.run rest
    | (r', .more) => r'.run rest
    | (_, .eof) => []

/-! ### Arguments -/

/-- lib.rs:127-165: the commands to run on startup.  (`getopts` has accepted the arguments.)  An argument
after `-d`, `-q`, `-i` or `-t` is that of a command, whatever it is; `key` is the key given. -/
def startupFrom (key : Option Text) : Option Text → List Text → List Command
  | _, [] => []
  | last, arg :: rest =>
    if last = some "-d".toList then
      (match key with
        | some k => .openEncrypted arg k
        | none => .openDb arg) :: startupFrom key none rest
    else if last = some "-q".toList then .query arg :: startupFrom key none rest
    else if last = some "-i".toList then .importFile arg :: startupFrom key none rest
    else if last = some "-t".toList then .transact arg :: startupFrom key none rest
    else startupFrom key (some arg) rest

/-- lib.rs:127-165: the commands to run on startup, for all arguments. -/
def startup (key : Option Text) (args : List Text) : List Command := startupFrom key none args

/-- Rust `str::split` on any of some characters -/
def splitOn (p : Char → Bool) : Text → List Text
  | [] => [[]]
  | c :: s => if p c then [] :: splitOn p s else match splitOn p s with
    | [] => [[c]]
    | w :: ws => (c :: w) :: ws

/-- repl.rs:99-106 `parse_namespaced_keyword` -/
def parseNamespacedKeyword (s : Text) : Res (Option NName) :=
  match splitOn (fun c => c = ':' || c = '/') s with
  | [[], ns, n] => (NName.namespaced ns n).bind fun k => .ok (some k)
  | _ => .ok none

/-- repl.rs:326-332, `Command::Sync` when syncing is compiled in: `args[0]` and `args[1]` -/
def syncArgs (args : List Text) : Res (Text × Text) :=
  match args[0]?, args[1]? with
  | some u, some id => .ok (u, id)
  | _, _ => .panic

end Cli
end Mentat
