/-! # Lists with every element repeated -/

namespace Verif

/-- the list with every element written `n` times: `[a, b, c]` twice is `[a, a, b, b, c, c]` -/
def eachTimes {α : Type} (n : Nat) (l : List α) : List α := l.flatMap (List.replicate n)

end Verif
