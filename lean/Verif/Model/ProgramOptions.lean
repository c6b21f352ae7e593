import Verif.Model.Core

/-!
# Command lines

`Litl::ProgramOptions` (LitlRun/LitlRun/ProgramOptions.h:30-190) forwards command lines to Boost.Program_options.
The parts of Boost which it calls are modelled from their documentation: `command_line_parser::run` is a parameter (which
associates option names to tokens, or throws), and `store` is as in boost/program_options/variables_map.hpp.
-/

namespace Litl

namespace ProgramOptions

/-- A declared option of values `V` (LitlRun/LitlRun/ProgramOptions.h:51-120): its default value if any, the value of
the option given without a token if any (`implicit_value`), and the conversion of the token of the command line. -/
structure Decl (V : Type) where
  name : String
  default : Option V := none
  implicit : Option V := none
  convert : String → Option V

/-- `flag(name)` (LitlRun/LitlRun/ProgramOptions.h:111-113). -/
def flag (name : String) (convert : String → Option Bool) : Decl Bool := ⟨name, some false, some true, convert⟩

/-- An entry of `m_variables`: the value, empty if a conversion has failed, and whether it is a default value. -/
structure Cell (V : Type) where
  value : Option V
  defaulted : Bool

/-- `m_variables` (LitlRun/LitlRun/ProgramOptions.h:187): the entries, and the names whose value is final. -/
structure Vars (V : Type) where
  cells : String → Option (Cell V)
  final : String → Bool

/-- Before any parsing. -/
def Vars.init (V : Type) : Vars V := ⟨fun _ => none, fun _ => false⟩

variable {V : Type}

/-- `m_variables[name] = c`. -/
def Vars.set (vars : Vars V) (name : String) (c : Cell V) : Vars V :=
  { vars with cells := fun n => if n = name then some c else vars.cells n }

/-- The value of an entry, which is erased if it is a default value. -/
def Vars.explicit (vars : Vars V) (name : String) : Option V :=
  match vars.cells name with
  | some c => if c.defaulted then none else c.value
  | none => none

/-- The declaration of an option (options which are unknown, or declared twice and given, are errors of `run`). -/
def find (decls : List (Decl V)) (name : String) : Option (Decl V) := decls.find? (fun d => d.name == name)

/-- The new value from a token, or `none` if an exception is thrown: `typed_value::xparse` and `validate` of Boost.
An option without token takes the implicit value; otherwise there must be no value yet, and the token must be
convertible. -/
def parseValue (d : Decl V) (old : Option V) : Option String → Option V
  | none => d.implicit
  | some token => if old.isSome then none else d.convert token

/-- First loop of `store`: the given options, in order.  Names which are final are skipped.  Returns the
variables, the names to be made final, and whether an exception is thrown. -/
def storeGiven (decls : List (Decl V)) : List (String × Option String) → Vars V → List String → Vars V × List String × Bool
  | [], vars, new => (vars, new, false)
  | (name, token) :: items, vars, new =>
    if vars.final name then storeGiven decls items vars new
    else
      match find decls name with
      | none => (vars, new, true)
      | some d =>
        match parseValue d (vars.explicit name) token with
        | none => (vars.set name ⟨vars.explicit name, false⟩, new, true)
        | some v => storeGiven decls items (vars.set name ⟨some v, false⟩) (name :: new)

/-- Second loop of `store`: the default values of options which have no entry. -/
def storeDefaults (decls : List (Decl V)) (vars : Vars V) : Vars V :=
  { vars with cells := fun n =>
      match vars.cells n with
      | some c => some c
      | none => (find decls n).bind fun d => d.default.map fun v => ⟨some v, true⟩ }

/-- `boost::program_options::store`; an exception leaves what has been stored. -/
def store (decls : List (Decl V)) (items : List (String × Option String)) (vars : Vars V) : Vars V × Bool :=
  match storeGiven decls items vars [] with
  | (vars, _, true) => (vars, true)
  | (vars, new, false) =>
    (storeDefaults decls { vars with final := fun n => vars.final n || new.contains n }, false)

/-- `parse(argc, argv)` (LitlRun/LitlRun/ProgramOptions.h:125-130), where `run` is that of `command_line_parser`: its
argument does not include the first argument, which is the name of the program.  The Boolean is whether an exception is
thrown. -/
def parse (run : List String → Option (List (String × Option String))) (decls : List (Decl V)) (args : List String)
    (vars : Vars V) : Vars V × Bool :=
  match run (args.drop 1) with
  | none => (vars, true)
  | some items => store decls items vars

/-- The characters skipped by `operator>>` of streams in the "C" locale. -/
def isSpace (c : Char) : Bool := c == ' ' || c == '\t' || c == '\n' || c == '\r' || c.toNat == 11 || c.toNat == 12

/-- `std::istream_iterator<std::string>` (LitlRun/LitlRun/ProgramOptions.h:154-155): `word` is the word being read. -/
def words : List Char → List Char → List (List Char)
  | [], word => if word.isEmpty then [] else [word]
  | c :: cs, word =>
    if isSpace c then (if word.isEmpty then words cs [] else word :: words cs []) else words cs (word ++ [c])

/-- `parse(args)` with a single string (LitlRun/LitlRun/ProgramOptions.h:153-156, 142-148, 135-137). -/
def parseString (run : List String → Option (List (String × Option String))) (decls : List (Decl V)) (args : String)
    (vars : Vars V) : Vars V × Bool :=
  parse run decls ((words args.toList []).map String.ofList) vars

/-- `has(name)` (LitlRun/LitlRun/ProgramOptions.h:161-163). -/
def has (vars : Vars V) (name : String) : Bool := (vars.cells name).isSome

/-- `as<T>(name)` (LitlRun/LitlRun/ProgramOptions.h:170-173): `bad_any_cast` if there is no value. -/
def as (vars : Vars V) (name : String) : Res V :=
  match (vars.cells name).bind (·.value) with
  | some v => .ok v
  | none => .error .stdError

end ProgramOptions

end Litl
