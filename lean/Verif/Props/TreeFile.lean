import Verif.Props.PersistLost
import Verif.Props.PersistTrained
import Verif.Props.TreeProps
import Verif.Spec.TreeFile

/-! # C146: trees and forests in the format that the loader understands -/

set_option linter.unusedSectionVars false

namespace Verif
open Dbl

variable {F : Type} [Dbl F]

theorem Restores.char (old : Option Char) {c : Char} (h : isBlank c = false) :
    Restores (rdChar old) (line (String.ofList [c])) (some c) := by
  intro pre rest hp
  refine ⟨['\n'], blanks_nl, ?_⟩
  have := rdChar_ok old hp c h ('\n' :: rest)
  simpa [line] using this

theorem Restores.lift {α : Type} {r : Res α} {a : α} (h : r = .ok a) :
    Restores (liftM r : Rd α) [] a := by
  subst h
  exact Restores.pure a

theorem cond_restores {T : Txt F} {c : FileCond F} (h : c.Ok T) :
    Restores (Cond.read T) (c.text T) c.meant := by
  cases c with
  | root c w =>
    obtain ⟨h1, h2⟩ := h
    unfold Cond.read FileCond.text
    refine (Restores.int _ (-1)).bind ?_
    refine (Restores.char _ h1).bind ?_
    refine (Restores.word _ h2).bind_nil ?_
    refine (Restores.use _).nil_bind ?_
    rw [if_pos rfl]
    exact Restores.pure _
  | discrete i v =>
    obtain ⟨h1, h2⟩ := h
    unfold Cond.read FileCond.text
    refine (Restores.int _ i).bind ?_
    refine (Restores.char _ (c := '=') (by decide)).bind ?_
    refine (Restores.word _ h2).bind_nil ?_
    refine (Restores.use _).nil_bind ?_
    rw [if_neg h1]
    refine Restores.bind_nil (a := ('=', Attr.discrete v)) ?_ (Restores.pure _)
    unfold Cond.readValue
    refine (Restores.use _).nil_bind ?_
    rw [if_pos rfl]
    exact Restores.pure _
  | indexed i k n =>
    obtain ⟨h1, h2⟩ := h
    unfold Cond.read FileCond.text
    refine (Restores.int _ i).bind ?_
    refine (Restores.char _ (c := ':') (by decide)).bind ?_
    refine (Restores.word _ (intText_word k)).bind ?_
    refine (Restores.use _).nil_bind ?_
    rw [if_neg h1]
    refine Restores.bind_nil (a := ('=', Attr.indexed "" k n)) ?_ (Restores.pure _)
    unfold Cond.readValue
    refine (Restores.use _).nil_bind ?_
    rw [if_neg (by decide), if_pos rfl]
    refine (Restores.int _ n).bind_nil ?_
    refine (Restores.lift h2).nil_bind ?_
    exact (Restores.use _).nil_bind (Restores.pure _)
  | number i c v =>
    obtain ⟨h1, h2, h3, h4, h5, h6⟩ := h
    unfold Cond.read FileCond.text
    refine (Restores.int _ i).bind ?_
    refine (Restores.char _ h2).bind ?_
    refine (Restores.word _ h5).bind_nil ?_
    refine (Restores.use _).nil_bind ?_
    rw [if_neg h1]
    refine Restores.bind_nil (a := (c, Attr.continuous v)) ?_ (Restores.pure _)
    unfold Cond.readValue
    refine (Restores.use _).nil_bind ?_
    rw [if_neg h3, if_neg h4]
    exact (Restores.lift h6).nil_bind (Restores.pure _)

theorem textAll_eq (T : Txt F) (L : MathLib F) (ts : List (FileTree F)) :
    FileTree.textAll T L ts = ts.flatMap (FileTree.text T L) := by
  induction ts with
  | nil => rfl
  | cons t ts ih => rw [FileTree.textAll, ih, List.flatMap_cons]

theorem meantAll_eq (ts : List (FileTree F)) :
    FileTree.meantAll ts = ts.map FileTree.meant := by
  induction ts with
  | nil => rfl
  | cons t ts ih => rw [FileTree.meantAll, ih, List.map_cons]

theorem okAll_mem {T : Txt F} {ts : List (FileTree F)} (h : FileTree.OkAll T ts) :
    ∀ t ∈ ts, t.Ok T := by
  induction ts with
  | nil => simp
  | cons t ts ih =>
    rw [FileTree.OkAll] at h
    intro u hu
    rcases List.mem_cons.1 hu with rfl | hu
    · exact h.1
    · exact ih h.2 u hu

theorem text_le_textAll {T : Txt F} {L : MathLib F} {ts : List (FileTree F)} :
    ∀ t ∈ ts, (t.text T L).length ≤ (FileTree.textAll T L ts).length := by
  induction ts with
  | nil => simp
  | cons t ts ih =>
    intro u hu
    rw [FileTree.textAll, List.length_append]
    rcases List.mem_cons.1 hu with rfl | hu
    · omega
    · have := ih u hu
      omega

theorem foldl_snoc_map {α β : Type} (f : α → β) (l : List α) (acc : List β) :
    l.foldl (fun s a => s ++ [f a]) acc = acc ++ l.map f := by
  induction l generalizing acc with
  | nil => simp
  | cons a l ih => rw [List.foldl_cons, ih]; simp

theorem node_restores {T : Txt F} {L : MathLib F} (hL : LibOk T L) (fuel : Nat) :
    ∀ t : FileTree F, t.Ok T → (t.text T L).length < fuel →
      Restores (Node.read T L fuel) (t.text T L) t.meant := by
  induction fuel with
  | zero => intro t _ h; omega
  | succ fuel ih =>
    intro t hok hlen
    cases t with
    | leaf c lab d =>
      rw [FileTree.Ok] at hok
      rw [FileTree.text, FileTree.meant]
      unfold Node.read
      refine (cond_restores hok.1).bind ?_
      refine (Restores.int none 0).bind ?_
      refine (Restores.use _).nil_bind ?_
      rw [if_pos rfl]
      refine (Restores.word _ hok.2.1).bind ?_
      exact (hL.dd d hok.2.2.1 hok.2.2.2).bind_nil (Restores.pure _)
    | inner c ch =>
      rw [FileTree.Ok] at hok
      rw [FileTree.text] at hlen ⊢
      rw [FileTree.meant]
      unfold Node.read
      refine (cond_restores hok.1).bind ?_
      refine (Restores.int none (ch.length : Int)).bind ?_
      refine (Restores.use _).nil_bind ?_
      have hne : (ch.length : Int) ≠ 0 := by
        have := List.length_pos_iff.2 hok.2.1
        omega
      rw [if_neg hne, Int.toNat_natCast, textAll_eq, meantAll_eq]
      refine Restores.bind_nil ?_ (Restores.pure _)
      have hl := Restores.loop (body := fun (ch : List (Node F)) => do
        let t ← Node.read T L fuel
        pure (ch ++ [t])) (txt := FileTree.text T L) (g := fun s t => s ++ [FileTree.meant t])
        ch (fun _ => True) [] trivial (fun s _ t ht => ⟨trivial, by
          refine Restores.bind_nil (ih t (okAll_mem hok.2.2 t ht) ?_) (Restores.pure _)
          have h1 := text_le_textAll (T := T) (L := L) t ht
          have h2 : 0 < (line (toString ch.length)).length := by simp [line]
          simp only [List.length_append] at hlen
          omega⟩)
      rw [foldl_snoc_map, List.nil_append] at hl
      exact hl

theorem tree_restores {T : Txt F} {L : MathLib F} (hL : LibOk T L) {t : FileTree F} (h : t.Ok T) :
    Restores (treeRead T L) (t.text T L) t.meant := by
  intro pre rest hp
  refine node_restores hL _ t h ?_ pre rest hp
  simp only [List.length_append]
  omega

/-- **C146**: a file in the loader's format is loaded as the tree it describes. -/
theorem C146_tree_loaded (T : Txt F) (L : MathLib F) (hL : LibOk T L) (t : FileTree F)
    (h : t.Ok T) : ∃ i, treeRead T L (In.ofText (t.text T L)) = .ok (t.meant, i) :=
  (tree_restores hL h).file

/-- **C146**: a file of several trees, preceded by their number, is loaded into a new forest as
these trees in this order. -/
theorem C146_forest_loaded (T : Txt F) (L : MathLib F) (hL : LibOk T L) (ts : List (FileTree F))
    (h : ∀ t ∈ ts, t.Ok T) :
    ∃ i, ensembleRead T L [] (In.ofText (line (toString ts.length) ++
      ts.flatMap (FileTree.text T L))) = .ok (ts.map FileTree.meant, i) := by
  have hr : Restores (ensembleRead T L []) (line (toString ts.length) ++
      ts.flatMap (FileTree.text T L)) (ts.map FileTree.meant) := by
    unfold ensembleRead
    refine (Restores.int none (ts.length : Int)).bind ?_
    refine (Restores.use _).nil_bind ?_
    rw [Int.toNat_natCast]
    have hl := Restores.loop (body := ensembleReadStep T L) (txt := FileTree.text T L)
      (g := fun s t => s ++ [FileTree.meant t])
      ts (fun _ => True) [] trivial (fun s _ t ht =>
        ⟨trivial, Restores.bind_nil (tree_restores hL (h t ht)) (Restores.pure _)⟩)
    rw [foldl_snoc_map, List.nil_append] at hl
    exact hl
  exact hr.file

theorem toFileAll_eq (ns : List (Node F)) : Node.toFileAll ns = ns.map Node.toFile := by
  induction ns with
  | nil => rfl
  | cons t ts ih => rw [Node.toFileAll, ih, List.map_cons]

/-- the condition is understood as it was meant -/
theorem satisfy_toFile {T : Txt F} (c : Cond F) (h : c.toFile.Ok T) (x : Inst F)
    (hv : c.value ≠ none) : c.toFile.meant.satisfy x = c.satisfy x := by
  obtain ⟨i, cmp, v⟩ := c
  cases v with
  | none => exact absurd rfl hv
  | some a =>
    cases a with
    | discrete v => rfl
    | continuous v => rfl
    | indexed v k n => rfl
    | binary b => exact absurd rfl h.2.2.1

theorem cond_toFile (n : Node F) : n.toFile.meant.cond = n.cond.toFile.meant := by
  obtain ⟨c, leaf, lab, d, ch⟩ := n
  rw [Node.toFile]
  cases leaf <;> rfl

theorem cond_toFile_ok {T : Txt F} {n : Node F} (h : n.toFile.Ok T) : n.cond.toFile.Ok T := by
  obtain ⟨c, leaf, lab, d, ch⟩ := n
  rw [Node.toFile] at h
  cases leaf
  · simp only [Bool.false_eq_true, if_false, FileTree.Ok] at h
    exact h.1
  · simp only [if_true, FileTree.Ok] at h
    exact h.1

theorem reaches_toFile {T : Txt F} {n leaf : Node F} {x : Inst F} {p : List Nat}
    (h : Reaches n x p leaf) (hok : n.toFile.Ok T) :
    ∃ leaf', Reaches n.toFile.meant x p leaf' ∧ leaf'.label = leaf.label ∧
      leaf'.dist = leaf.dist := by
  induction h with
  | here n x h =>
    obtain ⟨c, leaf, lab, d, ch⟩ := n
    cases h
    refine ⟨_, Reaches.here _ x ?_, ?_, ?_⟩ <;> rw [Node.toFile] <;> rfl
  | step n x k c path leaf hl hc hsat hfirst _ ih =>
    obtain ⟨cn, lf, lab, d, ch⟩ := n
    cases hl
    have hok' : ∀ q ∈ ch, q.toFile.Ok T := by
      rw [Node.toFile] at hok
      simp only [Bool.false_eq_true, if_false, FileTree.Ok, toFileAll_eq] at hok
      intro q hq
      exact okAll_mem hok.2.2 _ (List.mem_map_of_mem hq)
    have hch : (Node.mk cn false lab d ch).toFile.meant.children =
        ch.map (fun q => q.toFile.meant) := by
      rw [Node.toFile]
      simp only [Bool.false_eq_true, if_false, FileTree.meant, meantAll_eq, toFileAll_eq,
        Node.children, List.map_map]
      rfl
    have hval : ∀ (q : Node F) (b : Bool), q.cond.satisfy x = .ok b → q.cond.value ≠ none := by
      intro q b hq hv
      rw [Cond.satisfy, hv] at hq
      cases hq
    have hcm : c ∈ ch := List.mem_of_getElem? hc
    obtain ⟨leaf', h1, h2, h3⟩ := ih (hok' c hcm)
    refine ⟨leaf', ?_, h2, h3⟩
    refine Reaches.step _ x k c.toFile.meant path leaf' ?_ ?_ ?_ ?_ h1
    · rw [Node.toFile]; rfl
    · rw [hch, List.getElem?_map, show ch[k]? = some c from hc]
      rfl
    · rw [cond_toFile, satisfy_toFile _ (cond_toFile_ok (hok' c hcm)) x (hval c true hsat)]
      exact hsat
    · intro j hj q hq
      rw [hch, List.getElem?_map] at hq
      cases hqj : ch[j]? with
      | none => rw [hqj] at hq; cases hq
      | some q0 =>
        rw [hqj] at hq
        cases hq
        have hs := hfirst j hj q0 hqj
        rw [cond_toFile, satisfy_toFile _ (cond_toFile_ok (hok' q0 (List.mem_of_getElem? hqj))) x
          (hval q0 false hs)]
        exact hs

/-- **C146**: a tree written in the loader's format is loaded as a tree that sends every instance
to the same leaf, with the same label and distribution, so that it predicts the same label for
every plain instance that reaches a leaf. -/
theorem C146_written_tree (T : Txt F) (L : MathLib F) (hL : LibOk T L) (n : Node F)
    (h : n.toFile.Ok T) : ∃ n' i, treeRead T L (In.ofText (n.toFile.text T L)) = .ok (n', i) ∧
      ∀ x path leaf, Reaches n x path leaf →
        (∃ leaf', Reaches n' x path leaf' ∧ leaf'.label = leaf.label ∧ leaf'.dist = leaf.dist) ∧
        (x.isComposite = false → treePredict n' x = treePredict n x) := by
  obtain ⟨i, e⟩ := C146_tree_loaded T L hL n.toFile h
  refine ⟨_, i, e, fun x path leaf hr => ?_⟩
  obtain ⟨leaf', h1, h2, h3⟩ := reaches_toFile hr h
  refine ⟨⟨leaf', h1, h2, h3⟩, fun hx => ?_⟩
  rw [C57_predicts_leaf_label h1 hx, C57_predicts_leaf_label hr hx, h2]

/-- **C146**: for a tree grown from `data`, written in the loader's format and loaded again, the
predictions of the training instances are the same. -/
theorem C146_grown_tree [LawfulOrd F] (T : Txt F) (L : MathLib F) (hL : LibOk T L)
    {param : Node.SubsetParam} (hp : ValidParam param) {ts : List AttrType} {data : IList F}
    (hts : ∀ x ∈ data, typesOf x = ts) (hord : DataOrd ts data) {fuel : Nat} {c : Cond F}
    {n : Node F} (hg : Node.grow param false fuel data c = .ok n) (h : n.toFile.Ok T) :
    ∃ n' i, treeRead T L (In.ofText (n.toFile.text T L)) = .ok (n', i) ∧
      ∀ x ∈ data, x.isComposite = false → treePredict n' x = treePredict n x := by
  obtain ⟨n', i, e, hn⟩ := C146_written_tree T L hL n h
  refine ⟨n', i, e, fun x hx hc => ?_⟩
  obtain ⟨path, leaf, hr, _⟩ := C57_training_routing hp hts hord hg x hx
  exact (hn x path leaf hr).2 hc

/-! ## concrete cases -/

/-- `intTxt` with `stoi` and `stof` -/
def fileTxt : Txt XR := { intTxt with
  stof := fun s => match scanInt s.toList with
    | some p => .ok (.fin p.1)
    | none => .error (.throw "invalid_argument")
  stoi := fun s => match scanInt s.toList with
    | some p => .ok p.1
    | none => .error (.throw "invalid_argument") }

theorem fileTxt_stoi (k : Int) : fileTxt.stoi (toString k) = .ok k := by
  have := scanInt_text k [] (by simp)
  rw [List.append_nil] at this
  simp only [fileTxt, this]

theorem fileTxt_stof (k : Int) : fileTxt.stof (fileTxt.toStr (.fin k)) = .ok (.fin k) := by
  have := scanInt_text k [] (by simp)
  rw [List.append_nil] at this
  have e : fileTxt.toStr (.fin k) = toString k := rfl
  rw [e]
  simp only [fileTxt, this]

/-- a tree with conditions of all three kinds -/
def exFileTree : FileTree XR :=
  .inner (.root '=' "root") [
    .inner (.number 0 '<' (.fin 3)) [
      .leaf (.discrete 1 "red") "yes" ⟨[("no", 1), ("yes", 2)], 3⟩,
      .leaf (.discrete 1 "blue") "no" ⟨[("no", 4)], 4⟩],
    .inner (.number 0 '>' (.fin 3)) [
      .leaf (.indexed 2 0 2) "yes" ⟨[("yes", 1)], 1⟩,
      .leaf (.indexed 2 1 2) "no" ⟨[("no", 1)], 1⟩]]

theorem exFileTree_ok : exFileTree.Ok fileTxt := by
  have hw : Word "yes" ∧ Word "no" ∧ Word "root" ∧ Word "red" ∧ Word "blue" :=
    ⟨⟨by decide, by decide⟩, ⟨by decide, by decide⟩, ⟨by decide, by decide⟩,
      ⟨by decide, by decide⟩, ⟨by decide, by decide⟩⟩
  obtain ⟨w1, w2, w3, w4, w5⟩ := hw
  have hn : ∀ c : Char, isBlank c = false → c ≠ '=' → c ≠ ':' →
      (FileCond.number 0 c (.fin 3) : FileCond XR).Ok fileTxt := fun c h1 h2 h3 =>
    ⟨by decide, h1, h2, h3, intText_word 3, fileTxt_stof 3⟩
  simp only [exFileTree, FileTree.Ok, FileTree.OkAll, ne_eq, reduceCtorEq, not_false_eq_true,
    true_and, and_true]
  refine ⟨⟨by decide, w3⟩, ⟨hn '<' (by decide) (by decide) (by decide), ⟨⟨by decide, w4⟩, w1, ?_⟩,
    ⟨by decide, w5⟩, w2, ?_⟩, hn '>' (by decide) (by decide) (by decide),
    ⟨⟨by decide, fileTxt_stoi 0⟩, w1, ?_⟩, ⟨by decide, fileTxt_stoi 1⟩, w2, ?_⟩
  all_goals
    refine ⟨⟨by decide, rfl⟩, ?_⟩
    intro k hk
    simp only [DD.getItems, OMap.keys, List.map_cons, List.map_nil, List.mem_cons,
      List.not_mem_nil, or_false] at hk
    rcases hk with rfl | rfl <;> assumption

/-- it is loaded, and a plain instance is answered "no" -/
example : ∃ i, treeRead fileTxt (plainLib fileTxt)
    (In.ofText (exFileTree.text fileTxt (plainLib fileTxt))) = .ok (exFileTree.meant, i) ∧
    treePredict exFileTree.meant ⟨"?", [.continuous (.fin 9), .discrete "red", .indexed "b" 1 2],
      none⟩ = .ok "no" := by
  obtain ⟨i, e⟩ := C146_tree_loaded fileTxt (plainLib fileTxt) (plainLib_ok _) exFileTree
    exFileTree_ok
  exact ⟨i, e, by decide +kernel⟩

/-- two copies of it form a forest -/
example : ∃ i, ensembleRead fileTxt (plainLib fileTxt) [] (In.ofText
    (line (toString [exFileTree, exFileTree].length) ++
      [exFileTree, exFileTree].flatMap (FileTree.text fileTxt (plainLib fileTxt)))) =
    .ok ([exFileTree, exFileTree].map FileTree.meant, i) :=
  C146_forest_loaded fileTxt (plainLib fileTxt) (plainLib_ok _) _ (by
    intro t ht
    simp only [List.mem_cons, List.not_mem_nil, or_false, or_self] at ht
    subst ht
    exact exFileTree_ok)

/-- a tree that can be written -/
example : (Node.mk Cond.root false "no" ⟨[("no", 1)], 1⟩
    [Node.mk ⟨0, '<', some (.continuous (.fin 3))⟩ true "no" ⟨[("no", 1)], 1⟩ []] :
      Node XR).toFile.Ok fileTxt := by
  have w : Word "no" := ⟨by decide, by decide⟩
  have w' : Word "root" := ⟨by decide, by decide⟩
  simp only [Node.toFile, Node.toFileAll, FileTree.Ok, FileTree.OkAll, Cond.toFile, Cond.root,
    Bool.false_eq_true, if_false, if_true, ne_eq, reduceCtorEq, not_false_eq_true, true_and,
    and_true]
  refine ⟨⟨by decide, w'⟩, ⟨by decide, by decide, by decide, by decide, intText_word 3,
    fileTxt_stof 3⟩, w, ⟨by decide, rfl⟩, ?_⟩
  intro k hk
  simp only [DD.getItems, OMap.keys, List.map_cons, List.map_nil, List.mem_cons,
    List.not_mem_nil, or_false] at hk
  subst hk
  exact w

end Verif
