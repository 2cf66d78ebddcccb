/-!
# The lines of the command line

Modelled: /repo/src/cli/helper.rs 14-24, 37-42 (`validate`, `validate_input`), /repo/src/cli/commands.rs 28-46
(`Command::from_str`), /repo/src/cli/mod.rs 26-93 (`command_loop`, `handle_command`).

`char::is_whitespace` is a parameter `ws`.  Not modelled: history, signals, editing of lines.
-/

namespace Seafowl.Cli

abbrev Text := List Char

variable (ws : Char → Bool)

/-- `str::split_whitespace`. -/
def wordsAux : Text → Text → List Text
  | [], cur => if cur.isEmpty then [] else [cur.reverse]
  | c :: cs, cur =>
    if ws c then (if cur.isEmpty then wordsAux cs [] else cur.reverse :: wordsAux cs [])
    else wordsAux cs (c :: cur)

def words (s : Text) : List Text := wordsAux ws s []

/-- `join(" ")`. -/
def joinSp : List Text → Text
  | [] => []
  | [w] => w
  | w :: ws => w ++ ' ' :: joinSp ws

/-- `split_once(' ')`. -/
def splitOnce : Text → Option (Text × Text)
  | [] => none
  | c :: cs => if c = ' ' then some ([], cs) else (splitOnce cs).map fun (a, b) => (c :: a, b)

inductive Command where
  | quit
  | help
  | listTables
  | describe (name : Text)
  deriving DecidableEq, Repr

/-- `Command::from_str` (commands.rs 28-46). -/
def parseCommand (s : Text) : Option Command :=
  match splitOnce s with
  | none =>
    if s = "q".toList || s = "quit".toList then some .quit
    else if s = "d".toList then some .listTables
    else if s = "?".toList then some .help
    else none
  | some (c, arg) => if c = "d".toList then some (.describe arg) else none

/-- What the loop does with a line that was read. -/
inductive Action where
  | quit
  | help
  | sql (text : Text)
  | invalid
  deriving DecidableEq, Repr

/-- `handle_command` (mod.rs 74-93). -/
def runCommand : Command → Action
  | .quit => .quit
  | .help => .help
  | .listTables => .sql "SHOW TABLES".toList
  | .describe name => .sql ("SHOW COLUMNS FROM ".toList ++ name)

/-- The branches `Ok(line)` of `command_loop` (mod.rs 34-57). -/
def handleLine (line : Text) : Action :=
  match line with
  | '\\' :: _ =>
    match parseCommand ((joinSp (words ws line)).drop 1) with
    | some c => runCommand c
    | none => .invalid
  | _ => .sql line

/-- `trim_end`. -/
def trimEnd (s : Text) : Text := (s.reverse.dropWhile ws).reverse

/-- `validate` (helper.rs): the input is complete. -/
def complete (input : Text) : Bool :=
  (trimEnd ws input).getLast? == some ';' || (trimEnd ws input).head? == some '\\'

/-- `readline`: lines are added to the input until it is complete; the input and the lines left over, or nothing if the
lines end before. -/
def readInput : Text → List Text → Option (Text × List Text)
  | input, rest =>
    if complete ws input then some (input, rest)
    else
      match rest with
      | [] => none
      | l :: ls => readInput (input ++ '\n' :: l) ls
termination_by _ rest => rest.length

/-- `command_loop`: what is done with the lines that are typed. -/
def loop : Nat → List Text → List Action
  | 0, _ => []
  | _, [] => []
  | n + 1, l :: ls =>
    match readInput ws l ls with
    | none => []
    | some (input, rest) =>
      match handleLine ws input with
      | .quit => [.quit]
      | a => a :: loop n rest

/-- All lines are used up within as many rounds as there are lines. -/
def session (lines : List Text) : List Action := loop ws lines.length lines

end Seafowl.Cli
