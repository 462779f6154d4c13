import Verif.Props.PersistTrained
import Verif.Props.TreePrune

/-! # Models that are not restored: random classifier, trees, LDA, instance lists, networks -/

set_option linter.unusedSectionVars false

namespace Verif
open Dbl

variable {F : Type} [Dbl F]

theorem blanks_nl : Blanks ['\n'] := by simp [Blanks, isBlank]

theorem rdChar_ok (old : Option Char) {pre : List Char} (hp : Blanks pre) (c : Char)
    (hc : isBlank c = false) (cs : List Char) :
    rdChar old ⟨pre ++ c :: cs, false⟩ = .ok (some c, ⟨cs, false⟩) := by
  have e : (pre ++ c :: cs).dropWhile isBlank = c :: cs := by
    rw [dropWhile_blanks hp]
    simp [hc]
  simp only [rdChar, e]
  simp

theorem rdInt_bad (old : Option Int) {pre : List Char} (hp : Blanks pre) (c : Char)
    (hc : isBlank c = false) (cs : List Char) (hs : scanInt (c :: cs) = none) :
    rdInt old ⟨pre ++ c :: cs, false⟩ = .ok (some 0, ⟨c :: cs, true⟩) := by
  have e : (pre ++ c :: cs).dropWhile isBlank = c :: cs := by
    rw [dropWhile_blanks hp]
    simp [hc]
  simp only [rdInt, rdNum, e, hs]
  simp

theorem rdInt_end (old : Option Int) {pre : List Char} (hp : Blanks pre) :
    rdInt old ⟨pre, false⟩ = .ok (old, ⟨[], true⟩) := by
  have e : pre.dropWhile isBlank = [] := by
    have := dropWhile_blanks hp []
    simpa using this
  simp [rdInt, rdNum, e]

theorem rdWord_end (old : String) {pre : List Char} (hp : Blanks pre) :
    rdWord old ⟨pre, false⟩ = .ok (old, ⟨[], true⟩) := by
  have e : pre.dropWhile isBlank = [] := by
    have := dropWhile_blanks hp []
    simpa using this
  simp [rdWord, e]

/-! ## C100: random classifier -/

theorem scanNat_some {s r : List Char} {n : Nat} (h : scanNat s = some (n, r)) :
    ∃ d, d ≠ [] ∧ s = d ++ r ∧ ∀ c ∈ d, c.isDigit = true := by
  unfold scanNat at h
  split at h
  · cases h
  · rename_i c cs hd
    cases h
    refine ⟨s.takeWhile Char.isDigit, by rw [hd]; simp, ?_, ?_⟩
    · exact (List.takeWhile_append_dropWhile).symm
    · intro c hc
      exact (List.all_eq_true.mp List.all_takeWhile) c hc

theorem scanInt_some {s r : List Char} {n : Int} (h : scanInt s = some (n, r)) :
    ∃ d, d ≠ [] ∧ s = d ++ r ∧ ∀ c ∈ d, isBlank c = false := by
  unfold scanInt at h
  split at h
  · rename_i s
    obtain ⟨p, hp, e⟩ := Option.map_eq_some_iff.mp h
    cases e
    obtain ⟨d, _, e, hd⟩ := scanNat_some hp
    refine ⟨'-' :: d, by simp, by rw [e]; rfl, ?_⟩
    intro c hc
    rcases List.mem_cons.mp hc with rfl | hc
    · decide
    · exact isDigit_not_blank (hd c hc)
  · rename_i s
    obtain ⟨p, hp, e⟩ := Option.map_eq_some_iff.mp h
    cases e
    obtain ⟨d, _, e, hd⟩ := scanNat_some hp
    refine ⟨'+' :: d, by simp, by rw [e]; rfl, ?_⟩
    intro c hc
    rcases List.mem_cons.mp hc with rfl | hc
    · decide
    · exact isDigit_not_blank (hd c hc)
  · obtain ⟨p, hp, e⟩ := Option.map_eq_some_iff.mp h
    cases e
    obtain ⟨d, hn, e, hd⟩ := scanNat_some hp
    exact ⟨d, hn, e, fun c hc => isDigit_not_blank (hd c hc)⟩

/-- reading labels only appends -/
theorem readLabels_append (n : Nat) : ∀ (s r : String × List String) (i j : In),
    rdLoop readLabelStep n s i = .ok (r, j) → ∃ t, r.2 = s.2 ++ t := by
  induction n with
  | zero =>
    intro s r i j h
    cases h
    exact ⟨[], by simp⟩
  | succ n ih =>
    intro s r i j h
    simp only [rdLoop, readLabelStep] at h
    rw [rd_bind, rd_bind] at h
    obtain ⟨p, hp, h⟩ := bind_ok_iff.mp h
    obtain ⟨q, _, hq⟩ := bind_ok_iff.mp hp
    cases hq
    obtain ⟨t, e⟩ := ih _ _ _ _ h
    exact ⟨_ :: t, by rw [e]; simp; rfl⟩

/-- **C100** (refuted): for every list of distinct labels without white space, the labels of the
loaded random classifier are different from those that were saved. (`serialize` writes the
number of labels and the labels, `load` expects the seed first.) -/
theorem C100_refuted (labels : List String) (hne : labels ≠ []) (hw : ∀ l ∈ labels, Word l)
    (hnd : labels.Nodup) (labels' : List String) (i : In)
    (h : randomRead [] (In.ofText (randomText labels)) = .ok (labels', i)) : labels' ≠ labels := by
  obtain ⟨l0, ls, rfl⟩ := List.exists_cons_of_ne_nil hne
  have hl0 := hw l0 (by simp)
  obtain ⟨c0, cs0, e0, hc0⟩ := hl0.split
  simp only [randomRead, randomText, In.ofText] at h
  have r1 := rdInt_ok none ((l0 :: ls).length : Int) (pre := []) (by simp [Blanks])
    ((l0 :: ls).flatMap line)
  rw [List.nil_append] at r1
  rw [rd_bind, show intLine ((l0 :: ls).length : Int) = line (toString ((l0 :: ls).length : Int)) from rfl,
    r1, res_bind_ok] at h
  have e1 : '\n' :: (l0 :: ls).flatMap line = ['\n'] ++ c0 :: (cs0 ++ '\n' :: ls.flatMap line) := by
    simp [line, e0]
  rw [e1] at h
  cases hs : scanInt (c0 :: (cs0 ++ '\n' :: ls.flatMap line)) with
  | none =>
    rw [rd_bind, rdInt_bad none blanks_nl c0 hc0 _ hs, res_bind_ok, rd_bind, use_some, res_bind_ok] at h
    cases h
    simp
  | some p =>
    obtain ⟨n, r⟩ := p
    have e2 : rdInt none ⟨['\n'] ++ c0 :: (cs0 ++ '\n' :: ls.flatMap line), false⟩ =
        .ok (some n, ⟨r, false⟩) := by
      have e : (['\n'] ++ c0 :: (cs0 ++ '\n' :: ls.flatMap line)).dropWhile isBlank =
          c0 :: (cs0 ++ '\n' :: ls.flatMap line) := by
        rw [dropWhile_blanks blanks_nl]
        simp [hc0]
      simp only [rdInt, rdNum, e, hs]
      simp
    rw [rd_bind, e2, res_bind_ok, rd_bind, use_some, res_bind_ok, rd_bind] at h
    obtain ⟨⟨st, j⟩, hloop, h⟩ := bind_ok_iff.mp h
    cases h
    cases hn : n.toNat with
    | zero =>
      rw [hn] at hloop
      cases hloop
      simp
    | succ k =>
      rw [hn] at hloop
      simp only [rdLoop, readLabelStep] at hloop
      rw [rd_bind, rd_bind] at hloop
      obtain ⟨⟨s1, i1⟩, h1, hloop⟩ := bind_ok_iff.mp hloop
      obtain ⟨⟨w, i2⟩, hword, h1⟩ := bind_ok_iff.mp h1
      cases h1
      obtain ⟨t, et⟩ := readLabels_append _ _ _ _ _ hloop
      simp only [List.nil_append] at et
      rw [et]
      intro heq
      have hwl : w = l0 := by
        have := congrArg List.head? heq
        simpa using this
      subst hwl
      -- the rest of the stream starts inside or after the first label
      obtain ⟨d, hd, ed, hdb⟩ := scanInt_some hs
      have ed' : w.toList ++ '\n' :: ls.flatMap line = d ++ r := by
        rw [← ed, e0]
        rfl
      obtain ⟨u, hu1, hu2⟩ : ∃ u, w.toList = d ++ u ∧ r = u ++ '\n' :: ls.flatMap line := by
        rcases List.append_eq_append_iff.mp ed' with ⟨a, ha1, ha2⟩ | ⟨a, ha1, ha2⟩
        · cases a with
          | nil => exact ⟨[], by simpa using ha1.symm, by simpa using ha2.symm⟩
          | cons b a =>
            exfalso
            have hb : b = '\n' := by
              have := congrArg List.head? ha2
              simpa using this.symm
            have := hdb b (by rw [ha1]; simp)
            rw [hb] at this
            simp [isBlank] at this
        · exact ⟨a, ha1, ha2⟩
      rw [hu2] at hword
      cases u with
      | cons b u =>
        -- a proper part of the label
        have hub : ∀ c ∈ b :: u, isBlank c = false := fun c hc =>
          hl0.2 c (by rw [hu1]; exact List.mem_append_right _ hc)
        have hW : Word (String.ofList (b :: u)) := by
          refine ⟨fun h => ?_, by simpa using hub⟩
          have := congrArg String.toList h
          simp at this
        have := rdWord_ok "" hW (pre := []) (by simp [Blanks]) '\n' (by simp [isBlank]) (ls.flatMap line)
        simp only [List.nil_append, String.toList_ofList] at this
        rw [this] at hword
        cases hword
        rw [String.toList_ofList] at hu1
        have := congrArg List.length hu1
        simp only [List.length_append] at this
        have hd' : 0 < d.length := List.length_pos_iff.mpr hd
        omega
      | nil =>
        cases ls with
        | nil =>
          have := rdWord_end "" blanks_nl
          simp only [List.nil_append, List.flatMap_nil] at hword
          rw [this] at hword
          cases hword
          exact hl0.1 rfl
        | cons l1 ls =>
          have hw1 := hw l1 (by simp)
          have := rdWord_ok "" hw1 blanks_nl '\n' (by simp [isBlank]) (ls.flatMap line)
          have e5 : ['\n'] ++ (l1.toList ++ '\n' :: ls.flatMap line) =
              [] ++ '\n' :: (l1 :: ls).flatMap line := by simp [line]
          rw [e5] at this
          rw [this] at hword
          cases hword
          simp at hnd

/-- labels that satisfy the hypotheses, and what is loaded -/
example : ∃ i, randomRead [] (In.ofText (randomText ["a", "b"])) = .ok ([], i) := ⟨_, rfl⟩
example : ∃ i, randomRead [] (In.ofText (randomText ["2", "x", "y"])) = .ok (["x", "y"], i) := ⟨_, rfl⟩

/-! ## C103: instance lists -/

/-- reading a line -/
theorem rdLine_ok (old : String) {s : List Char} (hs : ∀ c ∈ s, c ≠ '\n') (rest : List Char) :
    rdLine old ⟨s ++ '\n' :: rest, false⟩ = .ok (String.ofList s, ⟨rest, false⟩) := by
  have h1 : (s ++ '\n' :: rest).takeWhile (fun c => c != '\n') = s := by
    rw [List.takeWhile_append_of_pos (by simpa using hs)]
    simp
  have h2 : (s ++ '\n' :: rest).dropWhile (fun c => c != '\n') = '\n' :: rest := by
    rw [List.dropWhile_append_of_pos (by simpa using hs)]
    simp
  unfold rdLine
  cases hc : s ++ '\n' :: rest with
  | nil => simp at hc
  | cons c cs =>
    rw [hc] at h1 h2
    simp only [h1, h2]
    simp

theorem typeText_head (as : List (Attr F)) (h : ∃ a ∈ as, a.isDiscreteIndexed = false) :
    ∃ c cs, as.flatMap Attr.typeText = c :: cs ∧ isBlank c = false ∧ ∀ r, scanInt (c :: r) = none := by
  induction as with
  | nil => simp at h
  | cons a as ih =>
    cases a with
    | continuous v => exact ⟨'C', _, rfl, by decide, fun r => rfl⟩
    | discrete v => exact ⟨'D', _, rfl, by decide, fun r => rfl⟩
    | binary v => exact ⟨'B', _, rfl, by decide, fun r => rfl⟩
    | indexed v k m =>
      obtain ⟨a, ha, hb⟩ := h
      have ha' : a ∈ as := by
        rcases List.mem_cons.mp ha with rfl | ha
        · cases hb
        · exact ha
      obtain ⟨c, cs, e, h2⟩ := ih ⟨a, ha', hb⟩
      exact ⟨c, cs, by rw [List.flatMap_cons, e]; rfl, h2⟩

/-- **C103** (refuted): every saved k-nearest-neighbour model whose first instance has an
attribute that is not indexed is loaded with an empty list of instances, so it answers the empty
string for every plain instance. (`serialize` writes the number of attributes, which the reader
does not expect.) -/
theorem C103_refuted (T : Txt F) (words split : String → List String) (m : Knn F) (x0 : Inst F)
    (h0 : m.data[0]? = some x0) (ha : ∃ a ∈ x0.attrs, a.isDiscreteIndexed = false)
    (t : List Char) (ht : m.text T = .ok t) :
    ∃ m' i, Knn.read T words split (In.ofText t) = .ok (m', i) ∧ m'.data = [] ∧ m'.k = m.k ∧
      ∀ x : Inst F, x.isComposite = false → m'.predict x = .ok "" := by
  have e0 : atR m.data 0 = .ok x0 := atR_eq_ok.mpr h0
  simp only [Knn.text, IList.fileText, e0, res_bind_ok] at ht
  cases ht
  obtain ⟨c, cs, et, hc, hs⟩ := typeText_head x0.attrs ha
  refine ⟨⟨[], m.k, euclidean⟩, ?_⟩
  rw [et]
  have r1 := fun rest => rdInt_ok none m.k (pre := []) (by simp [Blanks]) rest
  simp only [List.nil_append] at r1
  have hnl : ∀ d ∈ (toString (x0.attrs.length : Int)).toList, d ≠ '\n' := by
    intro d hd e
    have := (intText_word (x0.attrs.length : Int)).2 d hd
    rw [e] at this
    simp [isBlank] at this
  refine ⟨⟨c :: (cs ++ '\n' :: (intLine m.data.length ++ m.data.flatMap (Inst.fileText T))), true⟩,
    ?_, rfl, rfl, ?_⟩
  · unfold Knn.read IList.fileRead In.ofText
    rw [rd_bind, show intLine m.k = line (toString m.k) from rfl, r1, res_bind_ok, rd_bind, rd_bind]
    have e2 : rdIgnore ⟨'\n' :: (intLine (x0.attrs.length : Int) ++ (c :: cs ++
        '\n' :: (intLine m.data.length ++ m.data.flatMap (Inst.fileText T)))), false⟩ =
        .ok ((), ⟨(toString (x0.attrs.length : Int)).toList ++ '\n' :: (c :: cs ++
        '\n' :: (intLine m.data.length ++ m.data.flatMap (Inst.fileText T))), false⟩) := by
      simp [rdIgnore, intLine, line]
    rw [e2, res_bind_ok, rd_bind, rdLine_ok "" hnl, res_bind_ok, rd_bind]
    have e3 := rdInt_bad none (pre := []) (by simp [Blanks]) c hc
      (cs ++ '\n' :: (intLine m.data.length ++ m.data.flatMap (Inst.fileText T))) (hs _)
    rw [List.nil_append] at e3
    rw [show c :: cs ++ '\n' :: (intLine m.data.length ++ m.data.flatMap (Inst.fileText T)) =
      c :: (cs ++ '\n' :: (intLine m.data.length ++ m.data.flatMap (Inst.fileText T))) from rfl, e3]
    rfl
  · intro x hx
    simp only [Knn.predict, Knn.nearestNeighbors, List.foldlM_nil, res_pure, res_bind_ok, hx]
    have : (stableSort (fun (a b : Inst F × F) => a.2 <. b.2) []).take m.k.toNat = [] := by
      simp [stableSort]
    rw [this]
    rfl

/-- a list that satisfies the hypotheses -/
example : ∃ x0, nbList[0]? = some x0 ∧ (∃ a ∈ x0.attrs, a.isDiscreteIndexed = false) ∧
    ∃ t, Knn.text intTxt ⟨nbList, 3, euclidean⟩ = .ok t :=
  ⟨_, rfl, ⟨_, List.mem_cons_self, rfl⟩, _, rfl⟩

/-! ## C102: linear discriminant analysis -/

theorem readWeight_failed (T : Txt F) (n : Nat) (c : String) (v : F) (w0 : OMap F) (i : In)
    (hi : i.failed = true) (hc : c ∈ OMap.keys w0) :
    rdLoop (Lda.readWeightStep T) n ((c, some v), w0) i = .ok (((c, some v), w0), i) := by
  induction n with
  | zero => rfl
  | succ n ih =>
    have : Lda.readWeightStep T ((c, some v), w0) i = .ok (((c, some v), w0), i) := by
      unfold Lda.readWeightStep
      rw [rd_bind, rdWord_failed c i hi, res_bind_ok, rd_bind]
      simp only [rdDouble]
      rw [rdNum_failed _ _ _ i hi, res_bind_ok, rd_bind, use_some, res_bind_ok]
      have he : OMap.emplace w0 c v = w0 := by
        have := (OMap.find?_isSome_iff w0 c).mpr hc
        unfold OMap.emplace
        cases h : OMap.find? w0 c with
        | none => rw [h] at this; cases this
        | some _ => rfl
      rw [he]
      rfl
    rw [rdLoop, rd_bind, this, res_bind_ok]
    exact ih

/-- **C102** (refuted): a saved LDA model whose first class label does not read as a number is
never restored: if loading it into a new object returns at all, the loaded model has a single
weight, 0, under the number of classes instead of a weight for every class. (`serialize` writes
the number of classes, which `load` takes for the first label.) -/
theorem C102_refuted (T : Txt F) (L : MathLib F) (hL : LibOk T L) (m : Lda F)
    (hp : m.prior.Proper) (hw : ∀ k ∈ m.prior.getItems, Word k) (hk : OMap.keys m.w0 = m.prior.getItems)
    (c : String) (cs : List String) (hc : m.prior.getItems = c :: cs)
    (hnum : ∀ rest, T.scan (c.toList ++ '\n' :: rest) = none) (m' : Lda F) (i : In)
    (hr : Lda.read T L Lda.new (In.ofText (m.text T L)) = .ok (m', i)) :
    m'.prior = m.prior ∧ m'.w0 = [(toString m.prior.size, Dbl.zero)] := by
  have hwc := hw c (by rw [hc]; simp)
  obtain ⟨c0, cs0, ec, hc0⟩ := hwc.split
  obtain ⟨⟨c', v⟩, w0', ew0⟩ : ∃ p q, m.w0 = p :: q := by
    cases h : m.w0 with
    | nil => rw [h, hc] at hk; simp [OMap.keys] at hk
    | cons p q => exact ⟨p, q, rfl⟩
  have hcc : c' = c := by
    rw [ew0, hc] at hk
    simp only [OMap.keys, List.map_cons, List.cons.injEq] at hk
    exact hk.1
  subst hcc
  have hlen : m.w0.length = m.prior.size := by
    have := congrArg List.length hk
    simpa [DD.getItems, OMap.keys, DD.size] using this
  have hsize : ∃ n, m.prior.size = n + 1 := by
    rw [← hlen, ew0]
    exact ⟨_, rfl⟩
  obtain ⟨n, hn⟩ := hsize
  unfold Lda.read Lda.text In.ofText at hr
  set R := w0'.flatMap (fun p => line p.1 ++ line (T.shown p.2)) ++ vecMapText L m.w with hR
  obtain ⟨pre, hpre, e1⟩ := hL.dd m.prior hp hw [] (intLine m.w0.length ++
    (m.w0.flatMap (fun p => line p.1 ++ line (T.shown p.2)) ++ vecMapText L m.w)) (by simp [Blanks])
  rw [List.nil_append] at e1
  rw [rd_bind, e1, res_bind_ok] at hr
  simp only at hr
  rw [rd_bind, hn, rdLoop, rd_bind] at hr
  -- the first step
  have hstep : Lda.readWeightStep T (("", none), Lda.new.w0) ⟨pre ++ (intLine m.w0.length ++
      (m.w0.flatMap (fun p => line p.1 ++ line (T.shown p.2)) ++ vecMapText L m.w)), false⟩ =
      .ok (((toString m.prior.size, some Dbl.zero), [(toString m.prior.size, Dbl.zero)]),
        ⟨c'.toList ++ '\n' :: (line (T.shown v) ++ R), true⟩) := by
    have ea : intLine m.w0.length ++
        (m.w0.flatMap (fun p => line p.1 ++ line (T.shown p.2)) ++ vecMapText L m.w) =
        (toString m.prior.size).toList ++ '\n' :: (c'.toList ++ '\n' :: (line (T.shown v) ++ R)) := by
      rw [hlen, ew0, hR]
      have : toString (m.prior.size : Int) = toString m.prior.size := rfl
      simp [intLine, line, this]
    unfold Lda.readWeightStep
    rw [ea, rd_bind, rdWord_ok "" (natText_word _) hpre '\n' (by simp [isBlank]), res_bind_ok, rd_bind]
    have eb : rdDouble T none ⟨'\n' :: (c'.toList ++ '\n' :: (line (T.shown v) ++ R)), false⟩ =
        .ok (some Dbl.zero, ⟨c'.toList ++ '\n' :: (line (T.shown v) ++ R), true⟩) := by
      have e : ('\n' :: (c'.toList ++ '\n' :: (line (T.shown v) ++ R))).dropWhile isBlank =
          c'.toList ++ '\n' :: (line (T.shown v) ++ R) := by
        have := dropWhile_blanks blanks_nl (c'.toList ++ '\n' :: (line (T.shown v) ++ R))
        rw [List.singleton_append] at this
        rw [this, ec]
        simp [hc0]
      have hsc := hnum (line (T.shown v) ++ R)
      rw [ec] at e hsc ⊢
      simp only [List.cons_append] at e hsc ⊢
      simp only [rdDouble, rdNum, e, hsc]
      simp
    simp only
    rw [eb]
    rfl
  rw [hstep, res_bind_ok, readWeight_failed T n _ _ _ _ rfl (by simp [OMap.keys]), res_bind_ok,
    rd_bind] at hr
  obtain ⟨⟨s, j⟩, _, hr⟩ := bind_ok_iff.mp hr
  cases hr
  exact ⟨rfl, rfl⟩

/-- a model that satisfies the hypotheses -/
example : (∀ k ∈ (⟨[("a", 1), ("b", 2)], 3⟩ : DD).getItems, Word k) ∧
    (⟨[("a", 1), ("b", 2)], 3⟩ : DD).Proper ∧
    (∀ rest, intTxt.scan ("a".toList ++ '\n' :: rest) = none) := by
  refine ⟨?_, ⟨by decide, rfl⟩, fun rest => rfl⟩
  intro k hk
  have : k = "a" ∨ k = "b" := by simpa [DD.getItems, OMap.keys] using hk
  rcases this with rfl | rfl
  · exact ⟨by decide, by decide⟩
  · exact ⟨by decide, by decide⟩

/-! ## C101: decision trees -/

theorem scanInt_cmp {c : Char} (h : c = '=' ∨ c = '<' ∨ c = '>') (r : List Char) :
    scanInt (c :: r) = none ∧ isBlank c = false := by
  rcases h with rfl | rfl | rfl <;> exact ⟨rfl, rfl⟩

/-- the condition of a child: an attribute, a comparison, a value -/
def ChildCond (c : Cond F) : Prop :=
  ∃ (k : Nat) (v : Attr F), c.attr = k ∧ c.value = some v ∧ (c.cmp = '=' ∨ c.cmp = '<' ∨ c.cmp = '>')

/-- the shape of a trained tree: the condition of the root is unset, those of its children are
set -/
def RootShape (t : Node F) : Prop :=
  t.cond.attr = -1 ∧ ∀ c ∈ t.children, ChildCond c.cond

theorem childrenKind_shape {rec : IList F → Cond F → Res (Node F)}
    (hrec : ∀ p c n, rec p c = .ok n → n.cond = c)
    {data : IList F} {b : Node.Best F} {i : Nat} {a : Attr F}
    {ch : List (Node F)} (h : Node.childrenKind rec data b i a = .ok ch) :
    ∀ n ∈ ch, ChildCond n.cond := by
  unfold Node.childrenKind at h
  split at h
  · rw [bind_ok_iff] at h
    obtain ⟨m, _, h⟩ := h
    unfold Node.childrenIndexed at h
    simp only [bind_ok_iff] at h
    obtain ⟨_, _, _, _, c0, h0, _, _, c1, h1, h⟩ := h
    cases h
    intro n hn
    simp only [List.mem_cons, List.not_mem_nil, or_false] at hn
    rcases hn with rfl | rfl
    · rw [hrec _ _ _ h0]
      exact ⟨i, _, rfl, rfl, .inl rfl⟩
    · rw [hrec _ _ _ h1]
      exact ⟨i, _, rfl, rfl, .inl rfl⟩
  · split at h
    · unfold Node.childrenDiscrete at h
      simp only [bind_ok_iff] at h
      obtain ⟨_, _, _, _, h⟩ := h
      have hinv := mapM_ok_inv h
      intro n hn
      obtain ⟨k, hk, rfl⟩ := List.mem_iff_getElem.1 hn
      have := (List.forall₂_iff_get.1 hinv).2 k (by rw [hinv.length_eq]; exact hk) hk
      unfold Node.childDiscrete at this
      rw [bind_ok_iff] at this
      obtain ⟨_, _, h2⟩ := this
      have e := hrec _ _ _ h2
      rw [List.get_eq_getElem] at e
      rw [e]
      exact ⟨i, _, rfl, rfl, .inl rfl⟩
    · split at h
      · unfold Node.childrenContinuous at h
        simp only [bind_ok_iff] at h
        obtain ⟨_, _, _, _, c0, h0, _, _, c1, h1, h⟩ := h
        cases h
        intro n hn
        simp only [List.mem_cons, List.not_mem_nil, or_false] at hn
        rcases hn with rfl | rfl
        · rw [hrec _ _ _ h0]
          exact ⟨i, _, rfl, rfl, .inr (.inl rfl)⟩
        · rw [hrec _ _ _ h1]
          exact ⟨i, _, rfl, rfl, .inr (.inr rfl)⟩
      · cases h; simp

theorem grow_shape {param : Node.SubsetParam} {st : Bool} {fuel : Nat} {data : IList F}
    {n : Node F} (h : Node.grow param st fuel data Cond.root = .ok n) : RootShape n := by
  refine ⟨by rw [grow_cond h]; rfl, ?_⟩
  cases fuel with
  | zero => cases h
  | succ fuel =>
    rw [Node.grow] at h
    simp only at h
    split at h
    · cases h; simp [Node.children]
    · split at h
      · cases h; simp [Node.children]
      · unfold Node.splitNode at h
        simp only [bind_ok_iff] at h
        obtain ⟨x0, _, is, _, s, _, h⟩ := h
        unfold Node.finish at h
        split at h
        · cases h; simp [Node.children]
        · simp only [bind_ok_iff] at h
          obtain ⟨_, _, _, _, ch, hch, h⟩ := h
          cases h
          exact childrenKind_shape (fun p c n hn => grow_cond hn) hch

theorem PrunedFrom.cond_eq {n n' : Node F} (h : PrunedFrom n n') : n'.cond = n.cond := by
  cases h <;> rfl

theorem PrunedFrom.shape {n n' : Node F} (h : PrunedFrom n n') (hs : RootShape n) :
    RootShape n' := by
  refine ⟨by rw [h.cond_eq]; exact hs.1, ?_⟩
  cases h with
  | same => exact hs.2
  | cut c s d ch => exact hs.2
  | inner c s d ch ch' hl hch =>
    intro k hk
    obtain ⟨j, hj, e⟩ := List.getElem_of_mem hk
    have hj' : j < ch.length := by
      have : j < ch'.length := hj
      omega
    have := hch j ch[j] ch'[j] (by simp [hj']) (List.getElem?_eq_getElem hj)
    have e' : ch'[j] = k := e
    rw [← e', this.cond_eq]
    exact hs.2 _ (List.getElem_mem hj')

/-- every trained tree has this shape -/
theorem treeTrain_shape {l : IList F} {pruning : Option (F × List Nat)} {t : Node F}
    (h : treeTrain l pruning = .ok t) : RootShape t := by
  cases pruning with
  | none => exact grow_shape h
  | some p =>
    obtain ⟨ratio, arr⟩ := p
    simp only [treeTrain] at h
    obtain ⟨parts, _, h⟩ := bind_ok_iff.mp h
    obtain ⟨p1, _, h⟩ := bind_ok_iff.mp h
    obtain ⟨root, hroot, h⟩ := bind_ok_iff.mp h
    obtain ⟨p0, _, h⟩ := bind_ok_iff.mp h
    exact (C62_prune_only_cuts h).shape (grow_shape hroot)

theorem condText_child {T : Txt F} {c : Cond F} (h : ChildCond c) {t : List Char}
    (ht : c.text T = .ok t) : ∃ (k : Nat) (s : List Char), t = intLine k ++ (c.cmp :: '\n' :: s) := by
  obtain ⟨k, v, hk, hv, _⟩ := h
  unfold Cond.text at ht
  rw [if_neg (by omega), hv] at ht
  simp only at ht
  cases ht
  exact ⟨k, _, by rw [hk]⟩

/-- the text of a tree of this shape -/
theorem treeText_shape {T : Txt F} {t : Node F} (h : RootShape t) {s : List Char}
    (hs : t.text T = .ok s) :
    (t.children = [] ∧ s = intLine (-1) ++ (intLine 0 ++ line t.label)) ∨
    (∃ (k : Nat) (c : Char) (r : List Char), t.children ≠ [] ∧
      (c = '=' ∨ c = '<' ∨ c = '>') ∧ s = intLine (-1) ++ (intLine t.children.length ++ (intLine k ++ (c :: '\n' :: r)))) := by
  obtain ⟨c, leaf, lab, d, ch⟩ := t
  simp only [RootShape, Node.cond, Node.children, Node.label] at *
  rw [Node.text] at hs
  obtain ⟨tc, htc, hs⟩ := bind_ok_iff.mp hs
  obtain ⟨ts, hts, hs⟩ := bind_ok_iff.mp hs
  cases hs
  unfold Cond.text at htc
  rw [if_pos h.1] at htc
  cases htc
  rw [h.1]
  cases ch with
  | nil => exact .inl ⟨rfl, rfl⟩
  | cons n ns =>
    right
    have hn := h.2 n (by simp)
    obtain ⟨nc, nl, nlab, nd, nch⟩ := n
    rw [Node.textAll, Node.text] at hts
    obtain ⟨t1, ht1, hts⟩ := bind_ok_iff.mp hts
    obtain ⟨t2, ht2, hts⟩ := bind_ok_iff.mp hts
    cases hts
    obtain ⟨u1, hu1, ht1⟩ := bind_ok_iff.mp ht1
    obtain ⟨u2, hu2, ht1⟩ := bind_ok_iff.mp ht1
    cases ht1
    obtain ⟨k, r, e⟩ := condText_child hn hu1
    obtain ⟨_, _, _, _, hcmp⟩ := hn
    refine ⟨k, nc.cmp, r ++ ((intLine nch.length ++ (if nch.isEmpty then line nlab else u2)) ++ t2),
      by simp, hcmp, ?_⟩
    rw [e]
    simp only [List.isEmpty_cons, Bool.false_eq_true, if_false, List.append_assoc, List.cons_append]

/-- a leaf-only reading of a tree fails when a child cannot be read -/
theorem node_read_bad (T : Txt F) (L : MathLib F) (fuel : Nat) (c : Char) (r : List Char)
    (hc : c = '=' ∨ c = '<' ∨ c = '>') : ∃ e, Node.read T L fuel ⟨'\n' :: c :: r, false⟩ = .error e := by
  cases fuel with
  | zero => exact ⟨_, rfl⟩
  | succ fuel =>
    have h1 := rdInt_bad (some (-1)) blanks_nl c (scanInt_cmp hc r).2 r (scanInt_cmp hc r).1
    rw [List.singleton_append] at h1
    refine ⟨.ub "uninitialised variable", ?_⟩
    rw [Node.read, rd_bind]
    unfold Cond.read
    rw [rd_bind, h1]
    rfl

/-- **C101** (refuted): no trained tree with labels that are words is restored. Loading the saved
text of a single leaf is undefined behaviour; if loading the text of any other trained tree
returns at all, the loaded tree is a single leaf whose label is the empty string or a comparison
sign, so it answers that for every plain instance. (`serialize` writes no comparison and no value
for the root, and no distribution for a leaf.) -/
theorem C101_refuted (T : Txt F) (L : MathLib F) (l : IList F)
    (pruning : Option (F × List Nat)) (t : Node F) (ht : treeTrain l pruning = .ok t)
    (hw : Word t.label) (s : List Char) (hs : t.text T = .ok s) :
    (t.children = [] → ∃ u, treeRead T L (In.ofText s) = .error (.ub u)) ∧
    ∀ t' i, treeRead T L (In.ofText s) = .ok (t', i) → t'.isLeaf = true ∧ t'.children = [] ∧
      t'.label ∈ ["", "=", "<", ">"] ∧
      ∀ x : Inst F, x.isComposite = false → treePredict t' x = .ok t'.label := by
  have key : (t.children = [] → ∃ u, treeRead T L (In.ofText s) = .error (.ub u)) ∧
    ∀ t' i, treeRead T L (In.ofText s) = .ok (t', i) → t'.isLeaf = true ∧ t'.children = [] ∧
      t'.label ∈ ["", "=", "<", ">"] := by
    have r1 := fun rest => rdInt_ok (some (-1)) (-1) (pre := []) (by simp [Blanks]) rest
    simp only [List.nil_append] at r1
    have hsh := treeTrain_shape ht
    -- reading the condition
    have hcond : ∀ (n : Nat) (d : Char) (ds : List Char) (w : String) (rest rest' : List Char),
        (toString n).toList = d :: ds →
        rdWord "" ⟨ds ++ '\n' :: rest, false⟩ = .ok (w, ⟨rest', false⟩) →
        Cond.read T ⟨intLine (-1) ++ (intLine n ++ rest), false⟩ =
          .ok (⟨-1, d, none⟩, ⟨rest', false⟩) := by
      intro n d ds w rest rest' hd hword
      have hdb : isBlank d = false := (natText_word n).2 d (by rw [hd]; simp)
      unfold Cond.read
      rw [rd_bind, show intLine (-1) = line (toString (-1 : Int)) from rfl, r1, res_bind_ok, rd_bind]
      have e : '\n' :: (intLine n ++ rest) = ['\n'] ++ d :: (ds ++ '\n' :: rest) := by
        have : (toString (n : Int)).toList = d :: ds := hd
        rw [intLine, line, this]
        simp
      rw [e, rdChar_ok none blanks_nl d hdb, res_bind_ok, rd_bind, hword]
      rfl
    rcases treeText_shape hsh hs with ⟨hch, rfl⟩ | ⟨k, c, r, hchn, hc, rfl⟩
    · have hw0 := rdWord_ok "" hw blanks_nl '\n' (by simp [isBlank]) []
      have h1 := hcond 0 '0' [] t.label (line t.label) ['\n'] rfl (by simpa [line] using hw0)
      have hub : treeRead T L (In.ofText (intLine (-1) ++ (intLine 0 ++ line t.label))) =
          .error (.ub "uninitialised variable") := by
        unfold treeRead In.ofText
        rw [Node.read, rd_bind]
        rw [show intLine (0 : Int) = intLine ((0 : Nat) : Int) from rfl, h1, res_bind_ok, rd_bind,
          rdInt_end none blanks_nl]
        rfl
      refine ⟨fun _ => ⟨_, hub⟩, fun t' i h => ?_⟩
      rw [hub] at h
      cases h
    · refine ⟨fun h => absurd h hchn, ?_⟩
      · intro t' i h
        cases hd : (toString t.children.length).toList with
        | nil => exact absurd hd (natText_ne _)
        | cons d ds =>
          unfold treeRead In.ofText at h
          rw [Node.read, rd_bind] at h
          cases ds with
          | nil =>
            have hword : rdWord "" ⟨[] ++ '\n' :: (intLine k ++ (c :: '\n' :: r)), false⟩ =
                .ok (toString (k : Int), ⟨'\n' :: (c :: '\n' :: r), false⟩) := by
              have := rdWord_ok "" (intText_word (k : Int)) blanks_nl '\n' (by simp [isBlank])
                (c :: '\n' :: r)
              simpa [intLine, line] using this
            have e2 := rdInt_bad none blanks_nl c (scanInt_cmp hc []).2 ('\n' :: r)
              (scanInt_cmp hc _).1
            rw [List.singleton_append] at e2
            rw [hcond _ d [] _ _ _ hd hword, res_bind_ok, rd_bind, e2, res_bind_ok, rd_bind, use_some,
              res_bind_ok] at h
            simp only [if_true] at h
            rw [rd_bind, rdWord_failed _ _ rfl, res_bind_ok, rd_bind] at h
            obtain ⟨p, _, h⟩ := bind_ok_iff.mp h
            cases h
            exact ⟨rfl, rfl, by simp [Node.label]⟩
          | cons d' ds =>
            have hWd : Word (String.ofList (d' :: ds)) := by
              refine ⟨fun h => by have := congrArg String.toList h; simp at this, ?_⟩
              intro x hx
              rw [String.toList_ofList] at hx
              exact (natText_word t.children.length).2 x (by rw [hd]; exact List.mem_cons_of_mem _ hx)
            have hword := rdWord_ok "" hWd (pre := []) (by simp [Blanks]) '\n' (by simp [isBlank])
              (intLine k ++ (c :: '\n' :: r))
            rw [String.toList_ofList, List.nil_append] at hword
            have e2 := rdInt_ok none (k : Int) blanks_nl (c :: '\n' :: r)
            rw [List.singleton_append] at e2
            rw [hcond _ d _ _ _ _ hd hword, res_bind_ok, rd_bind,
              show intLine (k : Int) = line (toString (k : Int)) from rfl, e2, res_bind_ok, rd_bind,
              use_some, res_bind_ok] at h
            simp only at h
            by_cases hk : (k : Int) = 0
            · rw [if_pos hk] at h
              have hWc : Word (String.ofList [c]) := by
                rcases hc with rfl | rfl | rfl <;> exact ⟨by decide, by decide⟩
              have e3 := rdWord_ok "" hWc blanks_nl '\n' (by simp [isBlank]) r
              rw [String.toList_ofList] at e3
              rw [rd_bind, show '\n' :: c :: '\n' :: r = ['\n'] ++ ([c] ++ '\n' :: r) from rfl, e3,
                res_bind_ok, rd_bind] at h
              obtain ⟨p, _, h⟩ := bind_ok_iff.mp h
              cases h
              refine ⟨rfl, rfl, ?_⟩
              simp only [Node.label]
              rcases hc with rfl | rfl | rfl <;> decide
            · rw [if_neg hk] at h
              obtain ⟨j, hj⟩ : ∃ j, (k : Int).toNat = j + 1 := ⟨k - 1, by omega⟩
              obtain ⟨e, he⟩ := node_read_bad T L (intLine (-1) ++ (intLine t.children.length ++
                (line (toString (k : Int)) ++ (c :: '\n' :: r)))).length c ('\n' :: r) hc
              rw [rd_bind, hj, rdLoop, rd_bind, rd_bind, he] at h
              cases h
  refine ⟨key.1, fun t' i h => ?_⟩
  obtain ⟨a, b, c⟩ := key.2 t' i h
  refine ⟨a, b, c, fun x hx => ?_⟩
  obtain ⟨tc, tl, tlab, td, tch⟩ := t'
  simp only [Node.isLeaf] at a
  subst a
  simp [treePredict, Node.predict, hx, Node.predictPlain, Node.label]

/-- a trained tree (a leaf) that satisfies the hypotheses -/
example : ∃ (t : Node XR) (s : List Char),
    treeTrain [⟨"b", [.continuous (.fin 1)], none⟩] none = .ok t ∧ t.text intTxt = .ok s ∧
    t.label = "b" := ⟨.mk Cond.root true "b" ⟨[("b", 1)], 1⟩ [], _, rfl, rfl, rfl⟩

/-- a trained tree with two children that satisfies them -/
example : ∃ (t : Node XR) (s : List Char), treeTrain nbList none = .ok t ∧ t.text intTxt = .ok s ∧
    t.children.length = 2 ∧ Word t.label := by
  have h : (match treeTrain nbList none with
      | .ok t => (match t.text intTxt with
        | .ok _ => decide (t.children.length = 2 ∧ t.label = "b")
        | _ => false)
      | _ => false) = true := by decide +kernel
  split at h
  · rename_i t ht
    split at h
    · rename_i s hs
      have := of_decide_eq_true h
      refine ⟨t, s, ht, hs, this.1, ?_⟩
      rw [this.2]
      exact ⟨by decide, by decide⟩
    · cases h
  · cases h

/-! ## C132, C133: networks, QDA, naive Bayes of discrete attributes -/

theorem labels_restores {ls : List String} (h : ∀ l ∈ ls, Word l) (c : String) (acc : List String) :
    Restores (rdLoop readLabelStep ls.length (c, acc)) (ls.flatMap line)
      (ls.foldl (fun (s : String × List String) l => (l, s.2 ++ [l])) (c, acc)) :=
  Restores.loop ls (fun _ => True) _ trivial (fun s _ l hl =>
    ⟨trivial, (Restores.word s.1 (h l hl)).bind_nil (Restores.pure _)⟩)

/-- **C132**: the class labels and the number of inputs of a saved network are restored (into an
object without labels; otherwise the labels are appended). -/
theorem C132_labels_restored_partial {W : Type} (n : Net W) (hw : ∀ l ∈ n.labels, Word l)
    (old : List String) :
    ∃ i, netRead old (In.ofText n.text) = .ok ((old ++ n.labels, (n.d : Int)), i) := by
  have h : Restores (netRead old) n.text (old ++ n.labels, (n.d : Int)) := by
    unfold netRead Net.text
    refine (Restores.intLine none _).bind ?_
    refine (Restores.intLine none _).bind ?_
    refine (Restores.use _).nil_bind ?_
    refine (labels_restores hw "" old).bind_nil ?_
    refine (Restores.use _).nil_bind ?_
    have := foldl_snd (fun x : String => x) (fun x => x) n.labels "" old
    simp only [List.map_id'] at this
    rw [this]
    exact Restores.pure _
  exact h.file

/-- **C132** (refuted): no way of loading restores the weights of a network: the saved text of
two networks that differ only in their weights is the same, so one of them is not restored. -/
theorem C132_refuted {W : Type} (labels : List String) (d : Nat) (w w' : W) (hne : w ≠ w')
    (load : List Char → Res (Net W)) :
    ∃ v, (v = w ∨ v = w') ∧
      load (Net.text ⟨labels, d, v⟩) ≠ .ok ⟨labels, d, v⟩ := by
  by_contra h
  push Not at h
  have h1 := h w (.inl rfl)
  have h2 := h w' (.inr rfl)
  have : Net.text ⟨labels, d, w⟩ = Net.text ⟨labels, d, w'⟩ := rfl
  rw [this, h2] at h1
  injection h1 with h1
  injection h1 with _ _ h1
  exact hne h1.symm

/-- two networks that differ only in their weights -/
example : (⟨1, 2, fun _ _ => .fin 1⟩ : Mat XR) ≠ ⟨1, 2, fun _ _ => .fin 2⟩ := by
  intro h
  have := congrArg (fun m => Mat.e m 0 0) h
  exact absurd this (by decide)

/-- **C133** (refuted): no way of loading restores the quadratic terms of a QDA model. -/
theorem C133_refuted (T : Txt F) (L : MathLib F) (m : Qda F) (W' : OMap (Mat F)) (hne : m.W ≠ W')
    (load : List Char → Res (Qda F)) :
    load (m.text T L) ≠ .ok m ∨ load (Qda.text T L { m with W := W' }) ≠ .ok { m with W := W' } := by
  by_contra h
  push Not at h
  have : m.text T L = Qda.text T L { m with W := W' } := rfl
  rw [this, h.2] at h
  have h1 := h.1
  injection h1 with h1
  exact hne (congrArg Qda.W h1).symm

/-- **C133** (refuted): no way of loading restores the distributions of a naive Bayes model of
discrete attributes. -/
theorem C133_naive_bayes_refuted (L : MathLib F) (m : NaiveBayes F) (D : OMap (List DD))
    (hne : m.classAttributeDistributions ≠ D) (load : List Char → Res (NaiveBayes F)) :
    load (m.text L) ≠ .ok m ∨
      load (NaiveBayes.text L { m with classAttributeDistributions := D }) ≠
        .ok { m with classAttributeDistributions := D } := by
  by_contra h
  push Not at h
  have : m.text L = NaiveBayes.text L { m with classAttributeDistributions := D } := rfl
  rw [this, h.2] at h
  have h1 := h.1
  injection h1 with h1
  exact hne (congrArg NaiveBayes.classAttributeDistributions h1).symm

/-- two models that differ in a distribution only -/
example : ([("a", [⟨[("x", 1)], 1⟩])] : OMap (List DD)) ≠ [("a", [⟨[("y", 1)], 1⟩])] := by decide

end Verif
