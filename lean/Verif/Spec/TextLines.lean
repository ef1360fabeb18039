/-!
# Lines of a text
-/

namespace Dream.Spec

/-- The lines of a text, without the line breaks; a text without line break is one line. -/
def linesOf : List Char → List (List Char)
  | [] => [[]]
  | c :: s => if c = '\n' then [] :: linesOf s else
    match linesOf s with
    | [] => [[c]]
    | l :: ls => (c :: l) :: ls

end Dream.Spec
