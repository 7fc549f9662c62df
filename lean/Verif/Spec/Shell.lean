import Verif.Model.Basic

/-!
# How a shell reads a command line

The quoting rules of the POSIX shell (Shell Command Language, section 2.2 and 2.3), for commands
without expansions.  `lex` gives the words and operators of a command line, or `none` if the line is
incomplete or if some character in it would be expanded (variables, command substitution, file name
patterns, braces, home directories and, in an interactive shell, history).
-/

namespace Verif.Spec.Shell
open Verif

/-- A word or an operator character. -/
inductive Tok where
  | word (s : Str)
  | op (c : Char)
  deriving DecidableEq, Repr

/-- Inside which quotes the reader is. -/
inductive Quote where
  | out | single | double
  deriving DecidableEq

/-- Characters that end a word and are tokens of their own. -/
def isOp (c : Char) : Bool := c ∈ [';', '|', '&', '<', '>', '(', ')', '\n']

/-- Characters that are expanded outside of quotes. -/
def isExpanded (interactive : Bool) (c : Char) : Bool :=
  c ∈ ['$', '`', '*', '?', '[', '{'] || (interactive && c == '!')

/-- The word that is being read, if any, as a token. -/
def flush : Option Str → List Tok
  | none => []
  | some s => [.word s]

/-- Read the rest of a line; `cur` is what was read of the current word. -/
def lexGo (interactive : Bool) : Quote → Option Str → Str → Option (List Tok)
  | .out, cur, [] => some (flush cur)
  | _, _, [] => none
  | .out, cur, c :: cs =>
    if c = ' ' ∨ c = '\t' then (lexGo interactive .out none cs).map (flush cur ++ ·)
    else if c = '\'' then lexGo interactive .single (some (cur.getD [])) cs
    else if c = '"' then lexGo interactive .double (some (cur.getD [])) cs
    else if c = '\\' then
      match cs with
      | [] => none
      | d :: ds => if d = '\n' then none else lexGo interactive .out (some (cur.getD [] ++ [d])) ds
    else if isOp c then (lexGo interactive .out none cs).map (flush cur ++ .op c :: ·)
    else if isExpanded interactive c ∨ (cur = none ∧ c = '~') then none
    else if cur = none ∧ c = '#' then lexGo interactive .out none (cs.dropWhile (· ≠ '\n'))
    else lexGo interactive .out (some (cur.getD [] ++ [c])) cs
  | .single, cur, c :: cs =>
    if c = '\'' then lexGo interactive .out cur cs
    else if interactive ∧ c = '\n' then none
    else lexGo interactive .single (some (cur.getD [] ++ [c])) cs
  | .double, cur, c :: cs =>
    if c = '"' then lexGo interactive .out cur cs
    else if c = '$' ∨ c = '`' ∨ (interactive ∧ (c = '!' ∨ c = '\n')) then none
    else if c = '\\' then
      match cs with
      | [] => none
      | d :: ds =>
        if d = '\n' then none
        else if d ∈ ['$', '`', '"', '\\'] then
          lexGo interactive .double (some (cur.getD [] ++ [d])) ds
        else lexGo interactive .double (some (cur.getD [] ++ ['\\'])) (d :: ds)
    else lexGo interactive .double (some (cur.getD [] ++ [c])) cs
termination_by _ _ s => s.length
decreasing_by
  all_goals simp only [List.length_cons]
  all_goals first
    | omega
    | exact Nat.lt_succ_of_le (List.dropWhile_sublist _).length_le

/-- The words and operators of a command line. -/
def lex (interactive : Bool) (s : Str) : Option (List Tok) := lexGo interactive .out none s

/-- Letters, digits and other characters that mean nothing to a shell wherever they are. -/
def isOrdinary (c : Char) : Bool :=
  !isOp c && !isExpanded true c && c ∉ [' ', '\t', '\'', '"', '\\', '~', '#']

end Verif.Spec.Shell
