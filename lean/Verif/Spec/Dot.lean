/-! # Specification: reading DOT text

A reader of the subset of the DOT language used here: one statement per line, quoted identifiers and labels, backslash escapes
the next character. -/

namespace Verif.Spec.Dot

/-- The text split at line breaks. -/
def splitLines : List Char → List (List Char)
  | [] => [[]]
  | c :: cs =>
    if c = '\n' then [] :: splitLines cs
    else match splitLines cs with
      | [] => [[c]]
      | l :: ls => (c :: l) :: ls

/-- After an opening quote: the text up to the closing quote, and what follows it. -/
def readQuoted : List Char → Option (List Char × List Char)
  | [] => none
  | c :: cs =>
    if c = '"' then some ([], cs)
    else if c = '\\' then
      match cs with
      | [] => none
      | d :: ds => (readQuoted ds).map fun r => (c :: d :: r.1, r.2)
    else (readQuoted cs).map fun r => (c :: r.1, r.2)

/-- What follows the given prefix, if the text starts with it. -/
def after (p s : List Char) : Option (List Char) := if s.take p.length = p then some (s.drop p.length) else none

/-- A statement: a node with its label, or an edge with its label (empty if it has none). -/
inductive Stmt where
  | node (id label : List Char)
  | edge (source target label : List Char)

/-- The statement on one line, if there is one. -/
def readLine (line : List Char) : Option Stmt := do
  let r ← after [' ', ' ', '"'] line
  let (id, r) ← readQuoted r
  match after [' ', '[', 'l', 'a', 'b', 'e', 'l', '=', '"'] r with
  | some r => do
    let (label, _) ← readQuoted r
    some (.node id label)
  | none => do
    let r ← after [' ', '-', '>', ' ', '"'] r
    let (target, r) ← readQuoted r
    match after [' ', '[', 'l', 'a', 'b', 'e', 'l', '=', '"'] r with
    | some r => do
      let (label, _) ← readQuoted r
      some (.edge id target label)
    | none => some (.edge id target [])

/-- All the statements of a DOT text, in order. -/
def readDot (text : List Char) : List Stmt := (splitLines text).filterMap readLine

end Verif.Spec.Dot
