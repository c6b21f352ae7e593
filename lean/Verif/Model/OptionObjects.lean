import Verif.Model.Core

/-!
# Declaration of options

The objects `Litl::ProgramOptions` (LitlRun/LitlRun/ProgramOptions.h:30-190) up to the parsing of command lines.
The parts of Boost which are called are modelled from knowledge of their sources, which are not in /repo:
`options_description_easy_init` is a pointer to an `options_description`, and `positional_options_description` is made of limited options followed by an unlimited one.
Options are only names.  Values of dead objects are undefined behavior, also through pointers; the storage of an object may be
reused.
-/

namespace Litl.OptionObjects

/-- `positional_options_description` of Boost: the names of the limited options, each repeated as many times as it may be given,
and the name of the unlimited option, if any. -/
structure Positional where
  names : List String := []
  trailing : Option String := none
deriving DecidableEq, Repr

/-- `positional_options_description::add(name, maxCount)` of Boost (called at LitlRun/LitlRun/ProgramOptions.h:74-75), where
`maxTokens` is none for options of several tokens: then, `max_tokens()` is the largest `unsigned int`, which is converted to -1,
i.e. unlimited.  There shall be at most one unlimited option.  Other numbers of tokens are representable as `int`. -/
def Positional.add (p : Positional) (name : String) (maxTokens : Option Nat) : Res Positional :=
  match maxTokens, p.trailing with
  | none, some _ => .error .ub
  | none, none => .ok { p with trailing := some name }
  | some n, _ => .ok { p with names := p.names ++ List.replicate n name }

/-- `positional_options_description::max_total_count` and `name_for_position` of Boost: `none` if there are too many tokens. -/
def Positional.nameFor (p : Positional) (position : Nat) : Option String :=
  if position < p.names.length then p.names[position]? else p.trailing

/-- The names of the positional tokens of a command line as in `command_line_parser::run` of Boost (called at
LitlRun/LitlRun/ProgramOptions.h:127), where `position` is that of the first token; an exception is thrown for too many tokens.
-/
def Positional.bind (p : Positional) : Nat → List String → Res (List (String × String))
  | _, [] => .ok []
  | position, token :: tokens =>
    match p.nameFor position with
    | none => .error .stdError
    | some name => (bind p (position + 1) tokens).map ((name, token) :: ·)

/-- `m_named`, the object `m_add` refers to the `m_named` of, and `m_positional` (LitlRun/LitlRun/ProgramOptions.h:184-187). -/
structure Obj where
  named : List String
  owner : Nat
  positional : Positional
deriving DecidableEq, Repr

/-- The living objects. -/
abbrev Heap := Nat → Option Obj

/-- Initial state. -/
def Heap.init : Heap := fun _ => none

/-- What can be done with objects before parsing. -/
inductive Op where
  | construct (id : Nat)
  | copy (src dst : Nat)
  | move (src dst : Nat)
  | destroy (id : Nat)
  | named (id : Nat) (name : String)
  | positional (id : Nat) (name : String) (maxTokens : Option Nat)
deriving DecidableEq, Repr

/-- `heap[id] = o`. -/
def Heap.set (h : Heap) (id : Nat) (o : Option Obj) : Heap := fun i => if i = id then o else h i

/-- The object, which shall be alive. -/
def Heap.get (h : Heap) (id : Nat) : Res Obj :=
  match h id with
  | some o => .ok o
  | none => .error .ub

/-- `m_add(name, value, description)` (LitlRun/LitlRun/ProgramOptions.h:73, 105), where `m_add` is
`m_named.add_options()` of the constructor (LitlRun/LitlRun/ProgramOptions.h:52). -/
def addOption (h : Heap) (id : Nat) (name : String) : Res Heap := do
  let o ← h.get id
  let w ← h.get o.owner
  return h.set o.owner (some { w with named := w.named ++ [name] })

/-- The constructor (LitlRun/LitlRun/ProgramOptions.h:51-52), the implicit copy and move constructors and destructor
(LitlRun/LitlRun/ProgramOptions.h:184-187), `named` (LitlRun/LitlRun/ProgramOptions.h:84-106) and
`positional` (LitlRun/LitlRun/ProgramOptions.h:58-76).  Objects shall not be constructed over living ones.
Containers which are moved from are empty. -/
def step (h : Heap) : Op → Res Heap
  | .construct id =>
    match h id with
    | some _ => .error .ub
    | none => .ok (h.set id (some ⟨[], id, {}⟩))
  | .copy src dst =>
    match h dst with
    | some _ => .error .ub
    | none => do
      let o ← h.get src
      return h.set dst (some o)
  | .move src dst =>
    match h dst with
    | some _ => .error .ub
    | none => do
      let o ← h.get src
      return (h.set dst (some o)).set src (some ⟨[], o.owner, {}⟩)
  | .destroy id => do
    let _ ← h.get id
    return h.set id none
  | .named id name => addOption h id name
  | .positional id name maxTokens => do
    let h ← addOption h id name
    let o ← h.get id
    let p ← o.positional.add name maxTokens
    return h.set id (some { o with positional := p })

/-- A program. -/
def run (h : Heap) (ops : List Op) : Res Heap := ops.foldlM step h

end Litl.OptionObjects
