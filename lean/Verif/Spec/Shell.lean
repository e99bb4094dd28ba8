/-!
# What a shell makes of a command line

The part of the shell language that the plot commands use: blanks separate words, a semicolon separates commands, text between single quotes is
taken literally. With other special characters outside of quotes, or without closing quote, the result is `none`.
-/

namespace Sp

/-- Characters without special meaning. -/
def plainChar (c : Char) : Bool := c.isAlphanum || c == '-' || c == '.' || c == '/' || c == '_'

/-- The commands in a text, each a list of words. The first argument is true inside of quotes, the second is the word that is being read, the
third are the words of the current command before it. -/
def shell : Bool → Option (List Char) → List (List Char) → List Char → Option (List (List (List Char)))
  | true, _, _, [] => none
  | false, cur, ws, [] => some [ws ++ cur.toList]
  | true, cur, ws, c :: r => if c = '\'' then shell false cur ws r else shell true (some (cur.getD [] ++ [c])) ws r
  | false, cur, ws, c :: r =>
    if c = '\'' then shell true (some (cur.getD [])) ws r
    else if c = ' ' then shell false none (ws ++ cur.toList) r
    else if c = ';' then (shell false none [] r).map fun cs => (ws ++ cur.toList) :: cs
    else if plainChar c then shell false (some (cur.getD [] ++ [c])) ws r
    else none

/-- The commands in a text. -/
def shellCommands (text : List Char) : Option (List (List (List Char))) := shell false none [] text

/-- The first string in double quotes in a gnuplot script. In such strings a backslash and a backquote have special meaning. -/
def firstString (script : List Char) : Option (List Char) :=
  match script.dropWhile (· ≠ '"') with
  | [] => none
  | _ :: r => if r.any (· = '"') ∧ ¬ (r.takeWhile (· ≠ '"')).any (fun c => c = '\\' ∨ c = '`') then some (r.takeWhile (· ≠ '"')) else none

example : shellCommands "ls -l 'a b'c; reboot".toList = some [["ls".toList, "-l".toList, "a bc".toList], ["reboot".toList]] := by decide +kernel
example : firstString "plot \"x y\" with".toList = some "x y".toList := by decide +kernel

end Sp
