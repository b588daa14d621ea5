import Mathlib.Data.List.Basic

/-!
# Lines of a text
-/

namespace Plaquette

/-- The lines of a text. -/
def splitLines : List Char → List (List Char)
  | [] => [[]]
  | c :: cs => if c = '\n' then [] :: splitLines cs else
    match splitLines cs with
    | [] => [[c]]
    | l :: ls => (c :: l) :: ls

end Plaquette
