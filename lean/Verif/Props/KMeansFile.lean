import Verif.Props.ModelFiles

/-! # C149: saving and loading a nearest-mean classifier -/

set_option linter.unusedSectionVars false

namespace Verif
open Dbl

variable {F : Type} [Dbl F]

/-- without means every class has the same metric -/
theorem gaussFold_const [LawfulOrd F] (prior : DD) (metric : String → Res F) (v : F)
    (h : ∀ c, metric c = .ok v) (ls : List String) (s : String) :
    ls.foldlM (gaussStep prior metric) (s, v) = .ok (s, v) := by
  induction ls with
  | nil => rfl
  | cons c ls ih =>
    have hv : (v <. v) = false := by
      rw [← Bool.not_eq_true, LawfulOrd.lt_iff]
      exact fun h => h.2 h.1
    have : gaussStep prior metric (s, v) c = .ok (s, v) := by
      unfold gaussStep
      rw [h c]
      simp [hv, res_bind_ok, res_pure]
    rw [List.foldlM_cons, this, res_bind_ok, ih]

theorem nonNull_mem {l : List (Option (Attr F))} {as : List (Attr F)} (h : nonNull l = .ok as)
    {a : Attr F} (ha : some a ∈ l) : a ∈ as := by
  have hf := mapM_ok_inv h
  clear h
  induction hf with
  | nil => cases ha
  | cons h1 h2 ih =>
    rcases List.mem_cons.mp ha with e | e
    · rw [← e] at h1
      cases h1
      exact List.mem_cons_self
    · exact List.mem_cons_of_mem _ (ih e)

/-- **C149 fails of the code**: every saved nearest-mean model whose first mean has an attribute
that is not indexed is loaded without means, so it answers the most frequent training class for
every plain instance. (The reader of the distribution leaves the end of its last line, as `>>`
does.) -/
theorem C149_refuted [LawfulOrd F] (T : Txt F) (L : MathLib F) (words split : String → List String)
    (m : KMeans F) (p : MeanInst F) (h0 : m.classMeans[0]? = some p)
    (ha : ∃ a, some a ∈ p.2 ∧ a.isDiscreteIndexed = false)
    (hd : ∀ rest, L.ddRead ⟨L.ddText m.prior ++ rest, false⟩ =
      .ok (m.prior, ⟨'\n' :: rest, false⟩))
    (t : List Char) (ht : m.text T L = .ok t) :
    ∃ m' i, KMeans.read T L words split (In.ofText t) = .ok (m', i) ∧ m'.prior = m.prior ∧
      m'.classMeans = [] ∧
      ∀ x : Inst F, x.isComposite = false → m'.predict x = .ok m.prior.getMaxItem := by
  unfold KMeans.text at ht
  obtain ⟨ms, hms, ht⟩ := bind_ok_iff.mp ht
  obtain ⟨u, hu, ht⟩ := bind_ok_iff.mp ht
  cases ht
  unfold IList.fileText at hu
  obtain ⟨x0, hx0, hu⟩ := bind_ok_iff.mp hu
  cases hu
  have hx1 := atR_eq_ok.mp hx0
  have hx2 : KMeans.meanInst p = .ok x0 := by
    have hf := mapM_ok_inv hms
    clear hms hd hx0
    generalize m.classMeans = cm at hf h0
    cases hf with
    | nil => cases h0
    | cons h1 h2 =>
      cases h0
      cases hx1
      exact h1
  have hattr : ∃ a ∈ x0.attrs, a.isDiscreteIndexed = false := by
    unfold KMeans.meanInst at hx2
    obtain ⟨as, has, hx2⟩ := bind_ok_iff.mp hx2
    cases hx2
    obtain ⟨a, ha1, ha2⟩ := ha
    refine ⟨a, ?_, ha2⟩
    exact nonNull_mem has ha1
  obtain ⟨c, cs, et, hc, hs⟩ := typeText_head x0.attrs hattr
  rw [et]
  have hnl : ∀ d ∈ (toString (x0.attrs.length : Int)).toList, d ≠ '\n' := by
    intro d hd e
    have := (intText_word (x0.attrs.length : Int)).2 d hd
    rw [e] at this
    simp [isBlank] at this
  refine ⟨⟨m.prior, [], euclidean⟩,
    ⟨c :: (cs ++ '\n' :: (intLine ms.length ++ ms.flatMap (Inst.fileText T))), true⟩,
    ?_, rfl, rfl, ?_⟩
  · unfold KMeans.read IList.fileRead In.ofText
    rw [rd_bind, hd, res_bind_ok, rd_bind, rd_bind]
    have e2 : rdIgnore ⟨'\n' :: (intLine (x0.attrs.length : Int) ++ (c :: cs ++
        '\n' :: (intLine ms.length ++ ms.flatMap (Inst.fileText T)))), false⟩ =
        .ok ((), ⟨(toString (x0.attrs.length : Int)).toList ++ '\n' :: (c :: cs ++
        '\n' :: (intLine ms.length ++ ms.flatMap (Inst.fileText T))), false⟩) := by
      simp [rdIgnore, intLine, line]
    rw [e2, res_bind_ok, rd_bind, rdLine_ok "" hnl, res_bind_ok, rd_bind]
    have e3 := rdInt_bad none (pre := []) (by simp [Blanks]) c hc
      (cs ++ '\n' :: (intLine ms.length ++ ms.flatMap (Inst.fileText T))) (hs _)
    rw [List.nil_append] at e3
    rw [show c :: cs ++ '\n' :: (intLine ms.length ++ ms.flatMap (Inst.fileText T)) =
      c :: (cs ++ '\n' :: (intLine ms.length ++ ms.flatMap (Inst.fileText T))) from rfl, e3]
    rfl
  · intro x hx
    unfold KMeans.predict gaussPredict gaussInit
    simp only [hx, Bool.false_eq_true, if_false, res_pure, res_bind_ok]
    have := gaussFold_const m.prior
      ((⟨m.prior, [], euclidean⟩ : KMeans F).metric x) (Dbl.neg Dbl.maxVal) (fun c => rfl)
      m.prior.getItems m.prior.getMaxItem
    rw [this]
    rfl

/-- the reader of `plainLib` meets the hypothesis -/
theorem plainLib_rest (rest : List Char) :
    (plainLib intTxt).ddRead ⟨(plainLib intTxt).ddText ⟨[("a", 1), ("b", 2)], 3⟩ ++ rest, false⟩ =
      .ok (⟨[("a", 1), ("b", 2)], 3⟩, ⟨'\n' :: rest, false⟩) := by
  have w : ∀ s : String, s ∈ ["a", "b"] → Word s := by
    intro s hs
    simp only [List.mem_cons, List.not_mem_nil, or_false] at hs
    rcases hs with rfl | rfl <;> exact ⟨by decide, by decide⟩
  have st : ∀ (d : DD) (k : String) (n : Nat) (pre rest : List Char), Word k → Blanks pre →
      plainDDStep d ⟨pre ++ (line k ++ (line (toString (n : Int)) ++ rest)), false⟩ =
        .ok (⟨d.m.insert k n, d.sum + n⟩, ⟨'\n' :: rest, false⟩) := by
    intro d k n pre rest hk hp
    unfold plainDDStep
    rw [rd_bind, show line k ++ (line (toString (n : Int)) ++ rest) =
      k.toList ++ '\n' :: (line (toString (n : Int)) ++ rest) by simp [line],
      rdWord_ok "" hk hp '\n' (by decide), res_bind_ok, rd_bind,
      show '\n' :: (line (toString (n : Int)) ++ rest) =
        ['\n'] ++ (line (toString (n : Int)) ++ rest) from rfl,
      rdInt_ok none _ blanks_nl, res_bind_ok, rd_bind, use_some, res_bind_ok]
    rfl
  simp only [plainLib]
  have e0 := rdInt_ok none 2 (pre := []) (by simp [Blanks])
    (line "a" ++ (line (toString ((1 : Nat) : Int)) ++ (line "b" ++ (line (toString ((2 : Nat) : Int)) ++
      rest))))
  have e1 := st DD.empty "a" 1 ['\n'] (line "b" ++ (line (toString ((2 : Nat) : Int)) ++ rest))
    (w _ (by simp)) blanks_nl
  have e2 := st ⟨[("a", 1)], 1⟩ "b" 2 ['\n'] rest (w _ (by simp)) blanks_nl
  rw [rd_bind, show line (toString (([("a", 1), ("b", 2)] : OMap Nat).length : Int)) ++
    ([("a", 1), ("b", 2)] : OMap Nat).flatMap (fun p => line p.1 ++ line (toString (p.2 : Int))) ++ rest =
    [] ++ (line (toString (2 : Int)) ++ (line "a" ++ (line (toString ((1 : Nat) : Int)) ++ (line "b" ++
      (line (toString ((2 : Nat) : Int)) ++ rest))))) by simp, e0, res_bind_ok, rd_bind, use_some,
    res_bind_ok]
  change (plainDDStep DD.empty >>= rdLoop plainDDStep 1) _ = _
  rw [rd_bind, show ('\n' :: (line "a" ++ (line (toString ((1 : Nat) : Int)) ++ (line "b" ++
      (line (toString ((2 : Nat) : Int)) ++ rest))))) = ['\n'] ++ (line "a" ++
      (line (toString ((1 : Nat) : Int)) ++ (line "b" ++ (line (toString ((2 : Nat) : Int)) ++ rest))))
    from rfl, e1, res_bind_ok]
  change (plainDDStep ⟨[("a", 1)], 1⟩ >>= rdLoop plainDDStep 0) _ = _
  rw [rd_bind, show ('\n' :: (line "b" ++ (line (toString ((2 : Nat) : Int)) ++ rest))) =
    ['\n'] ++ (line "b" ++ (line (toString ((2 : Nat) : Int)) ++ rest)) from rfl, e2]
  rfl

/-- a model that satisfies the hypotheses -/
example : ∃ t, (⟨⟨[("a", 1), ("b", 2)], 3⟩, [("a", [some (.continuous (.fin 4))]),
    ("b", [some (.continuous (.fin 7))])], euclidean⟩ : KMeans XR).text intTxt (plainLib intTxt) =
    .ok t := ⟨_, rfl⟩

end Verif
