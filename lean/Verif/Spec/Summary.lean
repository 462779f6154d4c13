import Init

/-! # Specification for C160 -/

namespace Verif

/-- the items with a separator between them -/
def joined (sep : String) : List String → String
  | [] => ""
  | [a] => a
  | a :: b :: rest => a ++ sep ++ joined sep (b :: rest)

end Verif
