import Verif.Spec.Stream
import Verif.Model.DecisionTree

/-! # The file format that the tree loader understands

A condition is three words (attribute number, comparison, value), followed by the number of
values for an indexed attribute. A tree is its condition, its number of children and the
children; or, for a leaf, 0, the label and the class distribution. -/

namespace Verif
open Dbl

variable {F : Type} [Dbl F]

/-- a condition in a file -/
inductive FileCond (F : Type) where
  /-- the root: attribute number -1; comparison and value are read and ignored -/
  | root (cmp : Char) (word : String)
  | discrete (attr : Int) (value : String)
  | indexed (attr : Int) (index size : Int)
  | number (attr : Int) (cmp : Char) (value : F)

/-- a tree in a file -/
inductive FileTree (F : Type) where
  | leaf (cond : FileCond F) (label : String) (dist : DD)
  | inner (cond : FileCond F) (children : List (FileTree F))

/-- the text of a condition -/
def FileCond.text (T : Txt F) : FileCond F → List Char
  | .root c w => line (toString (-1 : Int)) ++ (line (String.ofList [c]) ++ line w)
  | .discrete i v => line (toString i) ++ (line "=" ++ line v)
  | .indexed i k n => line (toString i) ++ (line ":" ++ (line (toString k) ++ line (toString n)))
  | .number i c v => line (toString i) ++ (line (String.ofList [c]) ++ line (T.toStr v))

/-- the condition that is meant -/
def FileCond.meant : FileCond F → Cond F
  | .root c _ => ⟨-1, c, none⟩
  | .discrete i v => ⟨i, '=', some (.discrete v)⟩
  | .indexed i k n => ⟨i, '=', some (.indexed "" k n)⟩
  | .number i c v => ⟨i, c, some (.continuous v)⟩

/-- words are words, and numbers are understood -/
def FileCond.Ok (T : Txt F) : FileCond F → Prop
  | .root c w => isBlank c = false ∧ Word w
  | .discrete i v => i ≠ -1 ∧ Word v
  | .indexed i k _ => i ≠ -1 ∧ T.stoi (toString k) = .ok k
  | .number i c v => i ≠ -1 ∧ isBlank c = false ∧ c ≠ '=' ∧ c ≠ ':' ∧ Word (T.toStr v) ∧
      T.stof (T.toStr v) = .ok v

mutual
/-- the text of a tree -/
def FileTree.text (T : Txt F) (L : MathLib F) : FileTree F → List Char
  | .leaf c lab d => c.text T ++ (line (toString (0 : Int)) ++ (line lab ++ L.ddText d))
  | .inner c ch => c.text T ++ (line (toString ch.length) ++ FileTree.textAll T L ch)
/-- the texts of several trees -/
def FileTree.textAll (T : Txt F) (L : MathLib F) : List (FileTree F) → List Char
  | [] => []
  | t :: ts => FileTree.text T L t ++ FileTree.textAll T L ts
end

mutual
/-- the tree that is meant; inner nodes have neither a label nor a distribution -/
def FileTree.meant : FileTree F → Node F
  | .leaf c lab d => .mk c.meant true lab d []
  | .inner c ch => .mk c.meant false "" DD.empty (FileTree.meantAll ch)
/-- the trees that are meant -/
def FileTree.meantAll : List (FileTree F) → List (Node F)
  | [] => []
  | t :: ts => FileTree.meant t :: FileTree.meantAll ts
end

mutual
/-- conditions, labels and distributions are readable; an inner node has children -/
def FileTree.Ok (T : Txt F) : FileTree F → Prop
  | .leaf c lab d => c.Ok T ∧ Word lab ∧ d.Proper ∧ ∀ k ∈ d.getItems, Word k
  | .inner c ch => c.Ok T ∧ ch ≠ [] ∧ FileTree.OkAll T ch
/-- all trees are readable -/
def FileTree.OkAll (T : Txt F) : List (FileTree F) → Prop
  | [] => True
  | t :: ts => FileTree.Ok T t ∧ FileTree.OkAll T ts
end

/-! ## Writing a tree in this format -/

/-- a condition of a tree as it should be written (there is no way to write a condition on a
binary attribute, which training does not produce: the result is not `Ok`) -/
def Cond.toFile (c : Cond F) : FileCond F :=
  match c.value with
  | some (.discrete v) => .discrete c.attr v
  | some (.indexed _ k n) => .indexed c.attr k n
  | some (.continuous v) => .number c.attr c.cmp v
  | some (.binary _) => .number c.attr '=' Dbl.zero
  | none => .root c.cmp "root"

mutual
/-- a tree as it should be written -/
def Node.toFile : Node F → FileTree F
  | .mk c leaf lab d ch => if leaf then .leaf c.toFile lab d else .inner c.toFile (Node.toFileAll ch)
/-- several trees as they should be written -/
def Node.toFileAll : List (Node F) → List (FileTree F)
  | [] => []
  | n :: ns => Node.toFile n :: Node.toFileAll ns
end

end Verif
