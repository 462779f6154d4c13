import Verif.Props.PersistLost

/-! # Property C101 for forests: what loading a saved forest gives -/

set_option linter.unusedSectionVars false

namespace Verif
open Dbl

variable {F : Type} [Dbl F]

/-- the loaded tree answers one of these four texts for every plain instance -/
def LostTree (t' : Node F) : Prop :=
  t'.children = [] ∧ ∃ answer ∈ ["", "=", "<", ">"],
    ∀ x : Inst F, x.isComposite = false → treePredict t' x = .ok answer

theorem lost_leaf {c : Cond F} {lab : String} {d : DD} (h : lab ∈ ["", "=", "<", ">"]) :
    LostTree (Node.mk c true lab d []) :=
  ⟨rfl, lab, h, fun x hx => by simp [treePredict, Node.predict, hx, Node.predictPlain]⟩

theorem lost_inner {c : Cond F} {d : DD} : LostTree (Node.mk c false "" d []) := by
  refine ⟨rfl, "", by simp, fun x hx => ?_⟩
  simp [treePredict, Node.predict, hx, Node.predictPlain, Node.predictPlainIn]

/-- reading the condition of the root -/
theorem rootCond_read (T : Txt F) {pre : List Char} (hp : Blanks pre) (n : Nat) (d : Char) (ds : List Char)
    (w : String) (rest rest' : List Char) (hd : (toString n).toList = d :: ds)
    (hword : rdWord "" ⟨ds ++ '\n' :: rest, false⟩ = .ok (w, ⟨rest', false⟩)) :
    Cond.read T ⟨pre ++ (intLine (-1) ++ (intLine n ++ rest)), false⟩ =
      .ok (⟨-1, d, none⟩, ⟨rest', false⟩) := by
  have hdb : isBlank d = false := (natText_word n).2 d (by rw [hd]; simp)
  unfold Cond.read
  rw [rd_bind, show intLine (-1) = line (toString (-1 : Int)) from rfl, rdInt_ok (some (-1)) (-1) hp,
    res_bind_ok, rd_bind]
  have e : '\n' :: (intLine n ++ rest) = ['\n'] ++ d :: (ds ++ '\n' :: rest) := by
    have : (toString (n : Int)).toList = d :: ds := hd
    rw [intLine, line, this]
    simp
  rw [e, rdChar_ok none blanks_nl d hdb, res_bind_ok, rd_bind, hword]
  rfl

/-- Reading the text of a trained tree, after blanks and followed by the texts of other trained
trees: if it returns, the tree is lost. -/
theorem lost_read (T : Txt F) (L : MathLib F) {pre : List Char} (hp : Blanks pre) {t : Node F}
    (hsh : RootShape t) (hw : Word t.label) {s : List Char} (hs : t.text T = .ok s) {ts : List (Node F)}
    (hts : ∀ n ∈ ts, RootShape n) {tail : List Char} (htail : Node.textAll T ts = .ok tail)
    {fuel : Nat} {t' : Node F} {i : In}
    (h : Node.read T L (fuel + 1) ⟨pre ++ (s ++ tail), false⟩ = .ok (t', i)) : LostTree t' := by
  rcases treeText_shape hsh hs with ⟨hch, rfl⟩ | ⟨k, c, r, hchn, hc, rfl⟩
  · have hw0 := rdWord_ok "" hw blanks_nl '\n' (by simp [isBlank]) tail
    have h1 := rootCond_read T hp 0 '0' [] t.label (line t.label ++ tail) ('\n' :: tail) rfl
      (by simpa [line] using hw0)
    rw [Node.read, rd_bind] at h
    rw [show pre ++ (intLine (-1) ++ (intLine 0 ++ line t.label) ++ tail) =
      pre ++ (intLine (-1) ++ (intLine ((0 : Nat) : Int) ++ (line t.label ++ tail))) by simp, h1,
      res_bind_ok, rd_bind] at h
    cases ts with
    | nil =>
      cases htail
      rw [rdInt_end none blanks_nl] at h
      cases h
    | cons n ns =>
      have hn := hts n (by simp)
      rw [Node.textAll] at htail
      obtain ⟨t1, ht1, htail⟩ := bind_ok_iff.mp htail
      obtain ⟨t2, ht2, htail⟩ := bind_ok_iff.mp htail
      cases htail
      obtain ⟨r', rfl⟩ : ∃ r', t1 = intLine (-1) ++ r' := by
        rcases treeText_shape hn ht1 with ⟨_, rfl⟩ | ⟨_, _, _, _, _, rfl⟩
        · exact ⟨_, rfl⟩
        · exact ⟨_, rfl⟩
      have e2 := rdInt_ok none (-1) blanks_nl (r' ++ t2)
      rw [List.singleton_append] at e2
      rw [List.append_assoc, show intLine (-1) = line (toString (-1 : Int)) from rfl, e2, res_bind_ok,
        rd_bind, use_some, res_bind_ok] at h
      simp only [show ((-1 : Int) = 0) = False by simp, if_false] at h
      rw [rd_bind] at h
      cases h
      exact lost_inner
  · cases hd : (toString t.children.length).toList with
    | nil => exact absurd hd (natText_ne _)
    | cons d ds =>
      rw [Node.read, rd_bind] at h
      rw [show pre ++ (intLine (-1) ++ (intLine t.children.length ++ (intLine k ++ (c :: '\n' :: r))) ++ tail) =
        pre ++ (intLine (-1) ++ (intLine t.children.length ++ (intLine k ++ (c :: '\n' :: (r ++ tail))))) by simp] at h
      generalize r ++ tail = r at h
      cases ds with
      | nil =>
        have hword : rdWord "" ⟨[] ++ '\n' :: (intLine k ++ (c :: '\n' :: r)), false⟩ =
            .ok (toString (k : Int), ⟨'\n' :: (c :: '\n' :: r), false⟩) := by
          have := rdWord_ok "" (intText_word (k : Int)) blanks_nl '\n' (by simp [isBlank])
            (c :: '\n' :: r)
          simpa [intLine, line] using this
        have e2 := rdInt_bad none blanks_nl c (scanInt_cmp hc []).2 ('\n' :: r)
          (scanInt_cmp hc _).1
        rw [List.singleton_append] at e2
        rw [rootCond_read T hp _ d [] _ _ _ hd hword, res_bind_ok, rd_bind, e2, res_bind_ok, rd_bind, use_some,
          res_bind_ok] at h
        simp only [if_true] at h
        rw [rd_bind, rdWord_failed _ _ rfl, res_bind_ok, rd_bind] at h
        obtain ⟨p, _, h⟩ := bind_ok_iff.mp h
        cases h
        exact lost_leaf (by simp)
      | cons d' ds =>
        have hWd : Word (String.ofList (d' :: ds)) := by
          refine ⟨fun h => by have := congrArg String.toList h; simp at this, ?_⟩
          intro x hx
          rw [String.toList_ofList] at hx
          exact (natText_word t.children.length).2 x (by rw [hd]; exact List.mem_cons_of_mem _ hx)
        have hword := rdWord_ok "" hWd (pre := []) (by simp [Blanks]) '\n' (by simp [isBlank])
          (intLine k ++ (c :: '\n' :: r))
        rw [String.toList_ofList, List.nil_append] at hword
        have e2 := rdInt_ok none (k : Int) blanks_nl (c :: '\n' :: r)
        rw [List.singleton_append] at e2
        rw [rootCond_read T hp _ d _ _ _ _ hd hword, res_bind_ok, rd_bind,
          show intLine (k : Int) = line (toString (k : Int)) from rfl, e2, res_bind_ok, rd_bind,
          use_some, res_bind_ok] at h
        simp only at h
        by_cases hk : (k : Int) = 0
        · rw [if_pos hk] at h
          have hWc : Word (String.ofList [c]) := by
            rcases hc with rfl | rfl | rfl <;> exact ⟨by decide, by decide⟩
          have e3 := rdWord_ok "" hWc blanks_nl '\n' (by simp [isBlank]) r
          rw [String.toList_ofList] at e3
          rw [rd_bind, show '\n' :: c :: '\n' :: r = ['\n'] ++ ([c] ++ '\n' :: r) from rfl, e3,
            res_bind_ok, rd_bind] at h
          obtain ⟨p, _, h⟩ := bind_ok_iff.mp h
          cases h
          refine lost_leaf (lab := String.ofList [c]) ?_
          rcases hc with rfl | rfl | rfl <;> decide
        · rw [if_neg hk] at h
          obtain ⟨j, hj⟩ : ∃ j, (k : Int).toNat = j + 1 := ⟨k - 1, by omega⟩
          obtain ⟨e, he⟩ := node_read_bad T L fuel c ('\n' :: r) hc
          rw [rd_bind, hj, rdLoop, rd_bind, rd_bind, he] at h
          cases h

/-- every tree of a trained forest has the shape of a grown tree -/
theorem ensembleTrain_shape {param : Node.SubsetParam} {draws : Nat → List Nat} {l : IList F} {size : Int}
    {forest : List (Node F)} (h : ensembleTrain param draws [] l size = .ok forest) :
    ∀ t ∈ forest, RootShape t := by
  unfold ensembleTrain at h
  have main : ∀ (is : List Nat) (old f : List (Node F)), (∀ t ∈ old, RootShape t) →
      is.foldlM (fun forest i => do
        let sample := l.bootstrap (draws i)
        let t ← Node.grow param false (sample.length + 1) sample Cond.root
        pure (forest ++ [t])) old = .ok f → ∀ t ∈ f, RootShape t := by
    intro is
    induction is with
    | nil => intro old f ho e; cases e; exact ho
    | cons i is ih =>
      intro old f ho e
      rw [List.foldlM_cons] at e
      obtain ⟨f1, e1, e⟩ := bind_ok_iff.mp e
      obtain ⟨t, et, e1⟩ := bind_ok_iff.mp e1
      cases e1
      refine ih _ f ?_ e
      intro t' ht'
      rcases List.mem_append.1 ht' with h1 | h1
      · exact ho t' h1
      · rw [List.mem_singleton.1 h1]; exact grow_shape et
  exact main _ [] forest (by simp) h

/-- **C101 (refuted for forests)**: no bagging model or random forest is restored. Whatever trained
forest with at least one tree and labels that are words is saved: if loading the saved text returns
at all, the first loaded tree has no branches and answers the empty string or a comparison sign for
every plain instance. -/
theorem C101_forest_refuted (T : Txt F) (L : MathLib F) (param : Node.SubsetParam)
    (draws : Nat → List Nat) (l : IList F) (size : Int) (t : Node F) (ts : List (Node F))
    (ht : ensembleTrain param draws [] l size = .ok (t :: ts)) (hw : Word t.label)
    (s : List Char) (hs : ensembleText T (t :: ts) = .ok s) :
    ∀ f i, ensembleRead T L [] (In.ofText s) = .ok (f, i) →
      ∃ t' ts', f = t' :: ts' ∧ t'.children = [] ∧ ∃ answer ∈ ["", "=", "<", ">"],
        ∀ x : Inst F, x.isComposite = false → treePredict t' x = .ok answer := by
  intro f i h
  have hsh := ensembleTrain_shape ht
  unfold ensembleText at hs
  obtain ⟨tx, htx, hs⟩ := bind_ok_iff.mp hs
  cases hs
  rw [Node.textAll] at htx
  obtain ⟨t1, ht1, htx⟩ := bind_ok_iff.mp htx
  obtain ⟨t2, ht2, htx⟩ := bind_ok_iff.mp htx
  cases htx
  unfold ensembleRead In.ofText at h
  have e1 := rdInt_ok none ((t :: ts).length : Int) (pre := []) (by simp [Blanks]) (t1 ++ t2)
  rw [List.nil_append] at e1
  rw [rd_bind, show intLine ((t :: ts).length : Int) = line (toString ((t :: ts).length : Int)) from rfl,
    e1, res_bind_ok, rd_bind, use_some, res_bind_ok] at h
  simp only [Int.toNat_natCast, List.length_cons, rdLoop] at h
  rw [rd_bind] at h
  obtain ⟨⟨f1, i1⟩, h1, h⟩ := bind_ok_iff.mp h
  unfold ensembleReadStep at h1
  rw [rd_bind] at h1
  obtain ⟨⟨t', i2⟩, h2, h1⟩ := bind_ok_iff.mp h1
  cases h1
  have hl := lost_read T L blanks_nl (hsh t (by simp)) hw ht1 (fun n hn => hsh n (by simp [hn])) ht2
    (show Node.read T L (_ + 1) ⟨['\n'] ++ (t1 ++ t2), false⟩ = .ok (t', _) from h2)
  -- the later steps append
  have app : ∀ (n : Nat) (acc f : List (Node F)) (i j : In), rdLoop (ensembleReadStep T L) n acc i = .ok (f, j) →
      ∃ more, f = acc ++ more := by
    intro n
    induction n with
    | zero => intro acc f i j e; cases e; exact ⟨[], by simp⟩
    | succ n ih =>
      intro acc f i j e
      rw [rdLoop, rd_bind] at e
      obtain ⟨⟨f1, i1⟩, e1, e⟩ := bind_ok_iff.mp e
      unfold ensembleReadStep at e1
      rw [rd_bind] at e1
      obtain ⟨⟨q, i2⟩, _, e1⟩ := bind_ok_iff.mp e1
      cases e1
      obtain ⟨more, rfl⟩ := ih _ f _ j e
      exact ⟨[q] ++ more, by simp⟩
  obtain ⟨more, rfl⟩ := app _ _ f _ i h
  exact ⟨t', more, rfl, hl.1, hl.2⟩

/-- a trained forest that satisfies the hypotheses -/
example : ∃ (t : Node XR) (ts : List (Node XR)) (s : List Char),
    ensembleTrain none (fun _ => [0]) [] [⟨"b", [.continuous (.fin 1)], none⟩] 2 = .ok (t :: ts) ∧
    ensembleText intTxt (t :: ts) = .ok s ∧ t.label = "b" ∧ ts.length = 1 :=
  ⟨.mk Cond.root true "b" ⟨[("b", 1)], 1⟩ [], [.mk Cond.root true "b" ⟨[("b", 1)], 1⟩ []], _, rfl, rfl, rfl, rfl⟩

end Verif
